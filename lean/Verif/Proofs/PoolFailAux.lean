/-
Auxiliary lemmas for the theorems of `Verif.Props.PoolFail`.
-/
import Verif.Proofs.PoolFail4

namespace Foxxll.PoolFail

/-- The protocol, decided. -/
def legalB (s : St) : Op → Bool
  | .alloc | .collect _ | .ev _ => true
  | .write blk _ _ _ _ _ _ | .read blk _ _ _ | .add blk | .addP blk => !s.dead && s.uidle.contains blk
  | _ => !s.dead

theorem legalB_legal {s : St} {op : Op} (h : legalB s op = true) : Legal s op := by
  cases op <;> simp_all [legalB, Legal]

/-- Runs a history; a client goes on after an exception. -/
def run (s : St) : List Op → Option St
  | [] => some s
  | op :: ops =>
    if legalB s op then
      match step s op with
      | .ok s' => run s' ops
      | .throw s' => run s' ops
      | _ => none
    else none

theorem run_reach {A : Op → Prop} {s s' : St} {ops : List Op} (h : Reach A s) (ha : ∀ op ∈ ops, A op) (hr : run s ops = some s') :
    Reach A s' := by
  induction ops generalizing s with
  | nil => simp [run] at hr; rw [← hr]; exact h
  | cons op ops ih =>
    have h1 := ha op List.mem_cons_self
    have h2 : ∀ op ∈ ops, A op := fun o ho => ha o (List.mem_cons_of_mem _ ho)
    simp only [run] at hr
    split at hr
    · rename_i hl
      split at hr
      · rename_i s1 hs
        exact ih (Reach.ok op h h1 (legalB_legal hl) hs) h2 hr
      · rename_i s1 hs
        exact ih (Reach.throw op h h1 (legalB_legal hl) hs) h2 hr
      · simp at hr
    · simp at hr

end Foxxll.PoolFail
