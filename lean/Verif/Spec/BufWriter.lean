import Verif.Proofs.BufWriter
/-
Terms used in the statements of `Verif.Props.BufWriter`.
-/

namespace Foxxll.BufWriter

variable {α : Type}

/-- A step of the writer or of the I/O threads, as opposed to a call of the client. -/
inductive Internal (n wbs : Nat) (s s' : St α) : Prop
  | work (p : Option Nat) (c : Nat) : step n wbs false s (.work p c) = some s' → Internal n wbs s s'
  | done (b : Nat) : step n wbs false s (.done b) = some s' → Internal n wbs s s'

end Foxxll.BufWriter
