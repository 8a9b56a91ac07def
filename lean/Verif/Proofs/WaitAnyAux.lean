/-
Auxiliary lemmas for the theorems of `Verif.Props.WaitAny`.
-/
import Verif.Proofs.WaitAny
import Verif.Spec.WaitAny
set_option linter.unusedSimpArgs false
set_option linter.unusedVariables false

namespace Foxxll.WaitAny

/-- A sequence of steps. -/
def runOps (s : St) : List Op → Res St
  | [] => .ok s
  | op :: l => match step s op with
    | .ok s' => runOps s' l
    | r => r

/-- The state reached, or a default. -/
def endSt (s : St) (l : List Op) : St :=
  match runOps s l with
  | .ok s' => s'
  | _ => s

def isOk {σ : Type} : Res σ → Bool
  | .ok _ => true
  | _ => false

theorem reach_run {P : Op → Prop} : ∀ (l : List Op) (s : St), Reach P s → (∀ op ∈ l, P op) → isOk (runOps s l) = true → Reach P (endSt s l)
  | [], s, h, _, _ => h
  | op :: l, s, h, hp, ho => by
    simp only [runOps, endSt] at *
    cases hs : step s op with
    | ok s' =>
      rw [hs] at ho
      simp only at ho ⊢
      have := reach_run l s' (.next op h (hp op (by simp)) hs) (fun o ho => hp o (by simp [ho])) ho
      revert this ho
      simp only [endSt]
      cases runOps s' l <;> simp [isOk]
    | blocked => rw [hs] at ho; simp [isOk] at ho
    | ub => rw [hs] at ho; simp [isOk] at ho

theorem Exec.reach (e : Exec) : ∀ n, Reach Any (e.st n)
  | 0 => e.start
  | n + 1 => .next (e.op n) (e.reach n) trivial (e.steps n)

theorem step_other {s s' : St} {op : Op} {t : Nat} (hs : step s op = .ok s') (h : op ≠ .call t) :
    s'.args = s.args ∧ (∀ r, (s.req r).notified = true → (s'.req r).notified = true) ∧
    (s'.pc t = s.pc t ∨ (s.pc t = .asleep ∧ s'.pc t = .del 0 none)) := by
  cases op with
  | call u =>
    have hu : t ≠ u := fun e => h (by rw [e])
    simp only [step, callStep] at hs
    repeat' split at hs
    all_goals first
      | cases hs; done
      | (injection hs with hs; subst hs
         refine ⟨rfl, ?_, .inl ?_⟩
         · intro r hr; first | exact hr | exact (deleteW_same.2.1).trans hr | exact (insertW_same.2.1).trans hr
         · simp [setPc, upd, hu, deleteW, insertW])
  | spurious u =>
    simp only [step] at hs
    split at hs
    · rename_i hpc
      injection hs with hs; subst hs
      refine ⟨rfl, fun _ => id, ?_⟩
      by_cases hu : t = u
      · subst hu; exact .inr ⟨hpc, upd_eq _ _ _⟩
      · exact .inl (upd_ne _ _ hu)
    · cases hs
  | fail r =>
    simp only [step] at hs
    split at hs
    · cases hs
    injection hs with hs; subst hs
    refine ⟨rfl, ?_, .inl rfl⟩
    intro x hx
    simp only [upd]; split
    · rename_i h; subst h; exact hx
    · exact hx
  | setDone r =>
    simp only [step] at hs
    split at hs
    · cases hs
    injection hs with hs; subst hs
    refine ⟨rfl, ?_, .inl rfl⟩
    intro x hx
    simp only [upd]; split
    · rename_i h; subst h; exact hx
    · exact hx
  | notify r =>
    simp only [step] at hs
    split at hs
    · split at hs
      · injection hs with hs; subst hs
        refine ⟨rfl, ?_, .inl rfl⟩
        intro x hx
        simp only [upd]; split
        · rfl
        · exact hx
      · cases hs
    · cases hs

theorem exec_args (e : Exec) (t r : Nat) : ∀ n k, (e.st (n + k)).args = (e.st n).args ∧
    (((e.st n).req r).notified = true → ((e.st (n + k)).req r).notified = true)
  | n, 0 => ⟨rfl, id⟩
  | n, k + 1 => by
    obtain ⟨h1, h2⟩ := exec_args e t r n k
    by_cases hop : ∃ u, e.op (n + k) = .call u
    · obtain ⟨u, hu⟩ := hop
      have hs := e.steps (n + k)
      obtain ⟨h3, h4, _⟩ := step_other (t := u + 1) hs (by rw [hu]; simp)
      exact ⟨h3.trans h1, fun hn => h4 r (h2 hn)⟩
    · obtain ⟨h3, h4, _⟩ := step_other (t := t) (e.steps (n + k)) (fun h => hop ⟨t, h⟩)
      exact ⟨h3.trans h1, fun hn => h4 r (h2 hn)⟩

theorem step_done {s s' : St} {op : Op} {r : Nat} (hs : step s op = .ok s') (h : op ≠ .setDone r) :
    (s'.req r).done = (s.req r).done := by
  cases op with
  | call u =>
    simp only [step, callStep] at hs
    repeat' split at hs
    all_goals first
      | cases hs; done
      | (injection hs with hs; subst hs
         first | rfl | exact deleteW_same.1 | exact insertW_same.1)
  | spurious u =>
    simp only [step] at hs
    split at hs
    · injection hs with hs; subst hs; rfl
    · cases hs
  | fail x =>
    simp only [step] at hs
    split at hs
    · cases hs
    injection hs with hs; subst hs
    simp only [upd]; split
    · rename_i h; subst h; rfl
    · rfl
  | setDone x =>
    simp only [step] at hs
    split at hs
    · cases hs
    injection hs with hs; subst hs
    have : r ≠ x := fun e => h (by rw [e])
    simp [upd, this]
  | notify x =>
    simp only [step] at hs
    split at hs
    · split at hs
      · injection hs with hs; subst hs
        simp only [upd]; split
        · rename_i h; subst h; rfl
        · rfl
      · cases hs
    · cases hs

end Foxxll.WaitAny
