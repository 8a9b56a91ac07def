import Verif.Model.WriterFail
/-
Steps that are not calls of the client, for the properties of `Verif.Props.WriterAlive`.
-/
namespace Foxxll.WriterFail

variable {α : Type}

/-- A step inside a method, or the end of a request. -/
inductive Inside : Op α → Prop
  | work (c : Nat) : Inside (.work c)
  | done (b : Nat) : Inside (.done b)
  | fail (b : Nat) : Inside (.fail b)

end Foxxll.WriterFail
