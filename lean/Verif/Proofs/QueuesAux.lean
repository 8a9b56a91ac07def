/-
Auxiliary lemmas for the theorems of `Verif.Props.Queues`.
-/
import Verif.Proofs.Queues
set_option linter.unusedSimpArgs false

namespace Foxxll.Queue

/-- Legal use, decided. -/
def legalB (s : St) : Op → Bool
  | .push r _ => !(s.sub.map (·.1)).contains r && s.spc == .none
  | .cancel r w => s.sub.all (fun p => p.1 != r || p.2 == w) && s.spc == .none
  | .stopSet => s.nsig == 0 && s.ncw == 0
  | _ => true

theorem legalB_legal {s : St} {op : Op} (h : legalB s op = true) : Legal s op := by
  cases op with
  | push r w => simpa [legalB, Legal] using h
  | cancel r w =>
    simp [legalB, Legal] at h ⊢
    refine ⟨?_, h.2⟩
    constructor
    · intro hm; have := (h.1 r).1 hm; simpa using this
    · intro hm; have := (h.1 r).2 hm; simpa using this
  | stopSet => simpa [legalB, Legal] using h
  | _ => trivial

def run (k : Kind) (pB : St → Op → Bool) (s : St) : List Op → Option St
  | [] => some s
  | op :: ops =>
    if legalB s op && pB s op then
      match step k s op with
      | .ok s' => run k pB s' ops
      | _ => none
    else none

theorem run_reach {k : Kind} {P : St → Op → Prop} {pB : St → Op → Bool} (hP : ∀ s op, pB s op = true → P s op)
    {s s' : St} {ops : List Op} (h : Reach k P s) (hr : run k pB s ops = some s') : Reach k P s' := by
  induction ops generalizing s with
  | nil => simp [run] at hr; rw [← hr]; exact h
  | cons op ops ih =>
    simp only [run] at hr
    split at hr
    · rename_i hl
      simp at hl
      split at hr
      · rename_i s1 hs
        exact ih (Reach.next op h (legalB_legal hl.1) (hP _ _ hl.2) hs) hr
      · simp at hr
    · simp at hr

theorem witness (k : Kind) {P : St → Op → Prop} (pB : St → Op → Bool) (hP : ∀ s op, pB s op = true → P s op)
    (ops : List Op) (p : St → Bool) (hp : ((run k pB init ops).map p) = some true) : ∃ s, Reach k P s ∧ p s = true := by
  cases hr : run k pB init ops with
  | none => rw [hr] at hp; simp at hp
  | some s' => rw [hr] at hp; exact ⟨s', run_reach hP .start hr, by simpa using hp⟩

end Foxxll.Queue
