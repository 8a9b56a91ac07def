/-
What a program may expect of the members of its typed blocks, stated without addresses.
-/
import Verif.Model.BlockElems

namespace Foxxll.BlockElems

/-- What is known: the value of each member of each block in memory, and of the members of the block stored at each offset of the file.
`none` means that nothing is known (never set, or overwritten by something else). -/
structure Know where
  val : Nat → Part → Option (List Nat)
  disk : Nat → Part → Option (List Nat)

/-- At the beginning nothing is known: the constructors do not set any member. -/
def Know.nothing : Know := ⟨fun _ _ => none, fun _ _ => none⟩

/-- What is known after an operation, for blocks of `raw` bytes: storing a value concerns one member of one block, copying and reading
replace all members of one block, and writing replaces what is stored in the file at the offset; blocks stored at other offsets suffer only if they
overlap. -/
def Know.after (raw : Nat) (K : Know) : Op → Know
  | .set k q v => { K with val := fun k' q' => if k' = k ∧ q' = q then some v else K.val k' q' }
  | .get _ _ => K
  | .copy d c => { K with val := fun k' => if k' = d then K.val c else K.val k' }
  | .write k b =>
    { K with disk := fun o q =>
        if o = b.off then K.val k q else if o < b.off + raw ∧ b.off < o + raw then none else K.disk o q }
  | .read k b => { K with val := fun k' => if k' = k then K.disk b.off else K.val k' }

/-- A loaded value is the known one. -/
def Know.Right (K : Know) : Op × List Nat → Prop
  | (.get k q, out) => ∀ w, K.val k q = some w → out = w
  | (_, out) => out = []

/-- All loaded values are right. -/
def Follows (raw : Nat) : Know → List (Op × List Nat) → Prop
  | _, [] => True
  | K, e :: es => K.Right e ∧ Follows raw (K.after raw e.1) es

/-- The members of the blocks, in words of the template parameters: `n` elements, `NRef` BIDs, and a meta info unless its type is `void`. -/
def Part.Of (p : Arith.TParams) (n : Nat) : Part → Prop
  | .elem i => i < n
  | .ref i => i < p.nref
  | .info => p.m ≠ 0

/-- What a program may do with an array of `count` blocks: use members that exist, store values of the right type, and give BIDs of blocks that are large
enough. -/
def Allowed (A : Arr) : Op → Prop
  | .set k q v => k < A.count ∧ q.Of A.p A.n ∧ v.length = q.len A.p
  | .get k q => k < A.count ∧ q.Of A.p A.n
  | .copy d c => d < A.count ∧ c < A.count
  | .write k b => k < A.count ∧ ∀ z, b.size = some z → A.p.raw ≤ z
  | .read k b => k < A.count ∧ ∀ z, b.size = some z → A.p.raw ≤ z

end Foxxll.BlockElems
