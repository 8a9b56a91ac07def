import Verif.Model.NrefCheck
import Verif.Spec.Lifetime
/-
Notions for property C151.
-/
namespace Foxxll.NrefCheck
open Foxxll.Life

/-- Nobody but the worker that serves the request refers to it. -/
def Alone (s : St) (t r : Nat) : Prop := ∀ h ∈ s.ptrs, h.req = r → h = .loc t r

/-- From `s` to `s'` while thread `t` is serving `r`, i.e. has not yet called `completed`; the other threads do anything. -/
inductive During (fo : Nat → Nat) (t r : Nat) (s : St) : St → Prop
  | here : During fo t r s s
  | next {s' s''} (op : Op) : During fo t r s s' → Legal fo s' op → step s' op = .ok s'' → (∃ b, checks s'' t = some (b, r)) → During fo t r s s''

end Foxxll.NrefCheck
