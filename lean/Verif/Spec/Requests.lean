import Verif.Proofs.Requests
/-
Terms used in the statements of `Verif.Props.Requests`.
-/

namespace Foxxll.Request

/-- No restriction. -/
def Any : St → Op → Prop := fun _ _ => True

end Foxxll.Request
