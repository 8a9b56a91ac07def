import Verif.Proofs.Switches
/-
Terms used in the statements of `Verif.Props.Switches`.
-/
set_option linter.unusedSimpArgs false
set_option linter.unusedVariables false

namespace Foxxll.Switch

end Foxxll.Switch

namespace Foxxll.Shared

variable {V : Type} [DecidableEq V]

/-- An infinite run. -/
structure Exec (V : Type) [DecidableEq V] where
  st : Nat → St V
  op : Nat → Op V
  start : Reach (st 0)
  steps : ∀ n, step (st n) (op n) = some (st (n + 1))

end Foxxll.Shared
