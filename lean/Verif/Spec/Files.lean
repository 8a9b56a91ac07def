import Verif.Model.Files
/-
Histories of calls on the file implementations and what a client may rely on.
-/
namespace Foxxll.Files

/-- The operating system fails in none of the first `n` rounds and transfers something in each. -/
def Good (os : Nat → Sys) (n : Nat) : Prop :=
  ∀ c, c < n → (os c).seekFails = false ∧ (os c).sizeFails = false ∧ ∃ k, (os c).rc = some k ∧ 0 < k

/-- Calls on an in-memory file. -/
inductive MOp
  | write (off : Nat) (d : List UInt8)
  | read (off n : Nat)
  | setSize (n : Nat) (realloc : Option (Nat → UInt8))
  | discard (off n : Nat) (malloc : Option (Nat → UInt8))

/-- What a client may rely on: the size and, for each position, the byte written last, unless the
position was cut off or discarded since. -/
structure Known where
  size : Nat
  at_ : Nat → Option UInt8

def Known.step (k : Known) : MOp → Known
  | .write off d => { k with at_ := fun i => if off ≤ i ∧ i < off + d.length then d[i - off]? else k.at_ i }
  | .read _ _ => k
  | .setSize n _ => { size := n, at_ := fun i => if i < n ∧ i < k.size then k.at_ i else none }
  | .discard off n _ => { k with at_ := fun i => if off ≤ i ∧ i < off + n then none else k.at_ i }

/-- The access lies within the current size. -/
def InRange (size : Nat) : MOp → Prop
  | .write off d => off + d.length ≤ size
  | .read off n => off + n ≤ size
  | .setSize _ _ => True
  | .discard off n _ => off + n ≤ size

/-- Memory is available. -/
def Granted : MOp → Prop
  | .setSize _ r => r ≠ none
  | .discard _ _ m => m ≠ none
  | _ => True

/-- One call on the model: new state and bytes read. -/
def Mem.step (m : Mem) : MOp → MemRes (Mem × List UInt8)
  | .write off d => match m.write off d with
    | .ok m' => .ok (m', [])
    | .ub => .ub
  | .read off n => match m.read off n with
    | .ok b => .ok (m, b)
    | .ub => .ub
  | .setSize n r => .ok (m.setSize n r, [])
  | .discard off n g => match m.discard off n g with
    | .ok m' => .ok (m', [])
    | .ub => .ub

/-- Histories. -/
inductive MReach : Mem → Known → Prop
  | start : MReach Mem.init { size := 0, at_ := fun _ => none }
  | next {m m' : Mem} {k : Known} {b : List UInt8} (op : MOp) : MReach m k → InRange k.size op → Granted op →
      m.step op = .ok (m', b) → MReach m' (k.step op)

/-- Calls on one file-per-block file. -/
inductive FOp
  | write (os : FpbOs) (off : Nat) (data : List UInt8)
  | read (os : FpbOs) (buf : List UInt8) (off n : Nat)
  | discard (fails : Bool) (off : Nat)

def FOp.off : FOp → Nat
  | .write _ o _ => o
  | .read _ _ o _ => o
  | .discard _ o => o

/-- Effect of a call on the directory tree. -/
def fStep (mode : Mode) (p : List Char) (fs : FS) : FOp → FS
  | .write os off d => (fpbServe mode os p fs true d off d.length).fs
  | .read os buf off n => (fpbServe mode os p fs false buf off n).fs
  | .discard fails off => fpbDiscard p fs fails off

/-- The data of the last write at an offset, if that write did not throw and the block was not
discarded since. -/
def lastWritten (mode : Mode) (p : List Char) (fs : FS) (known : Nat → Option (List UInt8)) : FOp → Nat → Option (List UInt8)
  | .write os off d, o => if o = off then (if (fpbServe mode os p fs true d off d.length).threw then none else some d) else known o
  | .read _ _ _ _, o => known o
  | .discard _ off, o => if o = off then none else known o

/-- Histories in which `legal` holds for every call. -/
inductive FReach (mode : Mode) (p : List Char) (legal : FOp → Prop) : FS → (Nat → Option (List UInt8)) → Prop
  | start (fs : FS) : FReach mode p legal fs (fun _ => none)
  | next {fs : FS} {known : Nat → Option (List UInt8)} (op : FOp) : FReach mode p legal fs known → legal op → op.off < 2 ^ 64 →
      FReach mode p legal (fStep mode p fs op) (lastWritten mode p fs known op)

/-- All accesses to one offset have the same length, and buffers are long enough. -/
def SameLength (len : Nat → Nat) : FOp → Prop
  | .write _ off d => d.length = len off
  | .read _ buf off n => n = len off ∧ n ≤ buf.length
  | .discard _ _ => True

def okOs : FpbOs := { sys := fun _ => { rc := some 100 } }

end Foxxll.Files
