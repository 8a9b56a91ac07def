/-
Auxiliary lemmas for the theorems of `Verif.Props.Requests`.
-/
import Verif.Proofs.Requests
import Verif.Spec.Requests

namespace Foxxll.Request

def run (s : St) : List Op → Option St
  | [] => some s
  | op :: ops =>
    match step s op with
    | .ok s' => run s' ops
    | _ => none

theorem run_reach {s s' : St} {ops : List Op} (h : Reach Any s) (hr : run s ops = some s') : Reach Any s' := by
  induction ops generalizing s with
  | nil => simp [run] at hr; rw [← hr]; exact h
  | cons op ops ih =>
    simp only [run] at hr
    split at hr
    · rename_i s1 hs
      exact ih (Reach.next op h trivial hs) hr
    · simp at hr

theorem witness (h : Bool) (ops : List Op) (p : St → Bool) (hp : ((run (init h) ops).map p) = some true) :
    ∃ s, Reach Any s ∧ p s = true := by
  cases hr : run (init h) ops with
  | none => rw [hr] at hp; simp at hp
  | some s' => rw [hr] at hp; exact ⟨s', run_reach (.start h) hr, by simpa using hp⟩

end Foxxll.Request
