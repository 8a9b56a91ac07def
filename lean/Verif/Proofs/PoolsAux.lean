/-
Auxiliary lemmas for the theorems of `Verif.Props.Pools`.
-/
import Verif.Proofs.Pools

namespace Foxxll.Pool

variable {V : Type}

/-- The protocol, decided. -/
def legalB (s : St V) : Op V → Bool
  | .fill blk _ => s.uidle.contains blk
  | .write blk bid _ _ => s.uidle.contains blk && s.upend.all (fun e => e.bid != bid || isDone s e.req)
  | .read blk _ => s.uidle.contains blk
  | .add blk => s.uidle.contains blk
  | .addP blk => s.uidle.contains blk
  | _ => true

theorem legalB_legal {s : St V} {op : Op V} (h : legalB s op = true) : Legal s op := by
  cases op <;> simp_all [legalB, Legal]
  intro e he hb
  rcases h.2 e he with h1 | h1
  · exact absurd hb h1
  · exact h1

def run (ordered : Bool) (s : St V) : List (Op V) → Option (St V)
  | [] => some s
  | op :: ops =>
    if legalB s op then
      match step ordered s op with
      | .ok s' => run ordered s' ops
      | _ => none
    else none

theorem run_reach {ordered : Bool} {s s' : St V} {ops : List (Op V)} (h : Reach ordered s)
    (hr : run ordered s ops = some s') : Reach ordered s' := by
  induction ops generalizing s with
  | nil => simp [run] at hr; rw [← hr]; exact h
  | cons op ops ih =>
    simp only [run] at hr
    split at hr
    · rename_i hl
      split at hr
      · rename_i s1 hs
        exact ih (Reach.next op h (legalB_legal hl) hs) hr
      · simp at hr
    · simp at hr

/-- A history ends in a state with property `p`. -/
theorem witness {ordered : Bool} {s : St V} (h : Reach ordered s) (ops : List (Op V)) (p : St V → Bool)
    (hp : ((run ordered s ops).map p) = some true) : ∃ s', Reach ordered s' ∧ p s' = true := by
  cases hr : run ordered s ops with
  | none => rw [hr] at hp; simp at hp
  | some s' => rw [hr] at hp; exact ⟨s', run_reach h hr, by simpa using hp⟩

end Foxxll.Pool
