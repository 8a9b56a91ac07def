import Verif.Model.Helpers
/-
Words for the properties of `SWITCH` and of the helpers of utils.hpp.
-/
namespace Foxxll.Helpers

/-- The chain of cases `CASE<t1, T1, CASE<t2, T2, … NilCase>>` (tmeta.hpp:28-36). -/
def chain {T : Type} : List (Int × T) → Case T
  | [] => .nil
  | (t, ty) :: l => .case t ty (chain l)

end Foxxll.Helpers
