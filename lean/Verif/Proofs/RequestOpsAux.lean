import Verif.Proofs.RequestOps
/-
Auxiliary lemmas for the theorems of `Verif.Props.RequestOps`.
-/
set_option linter.unusedSimpArgs false
namespace Foxxll.ReqOps

/-- New requests, all in their queues. -/
def fresh (args : List Nat) (p : Pc) : St := { req := fun _ => {}, args := args, pc := p }

theorem fresh_begin (args : List Nat) (p : Pc) : Begin (fresh args p) p := ⟨rfl, fun _ => by simp [fresh, Req.Valid]⟩

end Foxxll.ReqOps
