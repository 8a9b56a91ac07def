import Verif.Model.ConfigQuery
/-
What the queries of the configuration should answer, for a list of disks of which the first `ff` are the regular ones.
-/
namespace Foxxll.ConfigQuery
open Foxxll.Config

/-- The right answer. -/
def Right (ds : List Disk) (ff : Nat) : Query → Answer → Prop
  | .disksNumber, a => a = .num ds.length
  | .regularRange, a => a = .range (0, ff)
  | .flashRange, a => a = .range (ff, ds.length)
  | .disk i, a => ∃ d, ds[i]? = some d ∧ a = .whole d
  | .diskPath i, a => ∃ d, ds[i]? = some d ∧ a = .text d.path
  | .diskSize i, a => ∃ d, ds[i]? = some d ∧ a = .num d.size
  | .diskIoImpl i, a => ∃ d, ds[i]? = some d ∧ a = .text d.ioImpl
  | .totalSize, a => a = .num (ds.map (·.size)).sum

/-- The query names a disk that does not exist. -/
def Query.Bad (n : Nat) : Query → Prop
  | .disk i | .diskPath i | .diskSize i | .diskIoImpl i => n ≤ i
  | _ => False

/-- The program asks for (and changes) existing disks only and gets the answers `as` in this order; disks added later are regular ones behind the others.  (That this is what `add_disk` makes
of them, whether or not there are flash disks, is the subject of C38.)  `ds'` are the disks at the end. -/
inductive Means : List Disk → Nat → List COp → List Answer → List Disk → Prop
  | nil (ds : List Disk) (ff : Nat) : Means ds ff [] [] ds
  | add {ds ds' : List Disk} {ff : Nat} {d : Disk} {l : List COp} {as : List Answer} : Means (ds ++ [d]) (ff + 1) l as ds' → Means ds ff (.add d :: l) as ds'
  | ask {ds ds' : List Disk} {ff : Nat} {q : Query} {a : Answer} {l : List COp} {as : List Answer} : Right ds ff q a → Means ds ff l as ds' →
      Means ds ff (.ask q :: l) (a :: as) ds'
  | change {ds ds' : List Disk} {ff i : Nat} {d : Disk} {l : List COp} {as : List Answer} : i < ds.length → Means (ds.set i d) ff l as ds' → Means ds ff (.change i d :: l) as ds'

/-- The program, at which the number of disks is `n`, names existing disks only. -/
def Valid : Nat → List COp → Prop
  | _, [] => True
  | n, .add _ :: l => Valid (n + 1) l
  | n, .ask q :: l => ¬ q.Bad n ∧ Valid n l
  | n, .change i _ :: l => i < n ∧ Valid n l

/-- The sizes of the disks, with all that the program adds or sets, do not add up to 2^64, and there are fewer than 2^32 disks. -/
def Small (ds : List Disk) (l : List COp) : Prop :=
  (ds.map (·.size)).sum + (l.map fun o => match o with | .add d => d.size | .change _ d => d.size | _ => 0).sum < 2 ^ 64 ∧ ds.length + l.length < 2 ^ 32

end Foxxll.ConfigQuery
