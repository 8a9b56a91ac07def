/-
Runs of the writer in which nothing is thrown.
-/
import Verif.Model.WriterFail

namespace Foxxll.WriterFail

variable {α : Type}

/-- The system gets from `s` to `s'` and no call is left by an exception; the client may do anything. -/
inductive Quiet (n wbs : Nat) (s : St α) : St α → Prop
  | refl : Quiet n wbs s s
  | next {s1 s2} (op : Op α) : Quiet n wbs s s1 → step n wbs s1 op = .ok s2 → Quiet n wbs s s2

end Foxxll.WriterFail
