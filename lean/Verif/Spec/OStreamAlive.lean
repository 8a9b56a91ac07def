import Verif.Model.WriterFail
/-
Steps of the output stream that are not calls of the client, for the properties of `Verif.Props.OStreamAlive`.
-/
namespace Foxxll.WriterFail

variable {α : Type}

/-- A step inside a call of the stream, or the end of a request. -/
inductive OInside : OOp α → Prop
  | work (ch : Nat) : OInside (.work ch)
  | done (b : Nat) : OInside (.done b)
  | fail (b : Nat) : OInside (.fail b)

/-- Such steps, one after the other, without an exception. -/
inductive OQuiet (c : Stream.OCfg) (s : OSt α) : OSt α → Prop
  | refl : OQuiet c s s
  | next {s1 s2} (op : OOp α) : OQuiet c s s1 → OInside op → oStep c s1 op = .ok s2 → OQuiet c s s2

end Foxxll.WriterFail
