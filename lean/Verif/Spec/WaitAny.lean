import Verif.Proofs.WaitAny
/-
Terms used in the statements of `Verif.Props.WaitAny`.
-/
set_option linter.unusedSimpArgs false
set_option linter.unusedVariables false

namespace Foxxll.WaitAny

/-- All steps. -/
def Any : Op → Prop := fun _ => True
/-- An infinite run. -/
structure Exec where
  st : Nat → St
  op : Nat → Op
  start : Reach Any (st 0)
  steps : ∀ n, step (st n) (op n) = .ok (st (n + 1))

end Foxxll.WaitAny
