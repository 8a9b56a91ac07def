/-
Invariants of the switch and of the shared state.
-/
import Verif.Model.Switches
set_option linter.unusedSimpArgs false
set_option linter.unusedVariables false

namespace Foxxll.Switch

theorem upd_eq {α : Type} (f : Nat → α) (t : Nat) (a : α) : upd f t a t = a := by simp [upd]
theorem upd_ne {α : Type} (f : Nat → α) {t u : Nat} (a : α) (h : u ≠ t) : upd f t a u = f u := by simp [upd, h]

/-- No spurious wake-up, and the switch is set only to a value for which all sleepers wait. -/
def Quiet (s : St) : Op → Prop
  | .spurious _ => False
  | .set v _ => ∀ u, s.pc u ≠ .asleep (!v)
  | _ => True

/-- A call begins only when nobody sleeps. -/
def Alone (s : St) : Op → Prop
  | .wait _ _ => ∀ u, sleeps (s.pc u) = false
  | _ => True

theorem reach_seen {s : St} (h : Reach Quiet s) :
    ∀ t w, (s.pc t = .woken w ∨ s.pc t = .returned w) → s.seen t = true := by
  induction h with
  | start flag => intro t w h; simp [init] at h
  | @next s s' op hr hl hp hs ih =>
    intro t w h
    cases op with
    | wait u want =>
      simp only [step] at hs
      split at hs
      · split at hs
        · injection hs with hs; subst hs
          by_cases e : t = u
          · subst e; exact upd_eq _ _ _
          · simp only [upd_ne _ _ e] at h ⊢
            exact ih t w h
        · injection hs with hs; subst hs
          by_cases e : t = u
          · subst e; simp only [upd_eq] at h; simp at h
          · simp only [upd_ne _ _ e] at h ⊢
            exact ih t w h
      · cases hs
    | set v w' =>
      simp only [step] at hs
      injection hs with hs; subst hs
      simp only [Bool.or_eq_true]
      by_cases e : t = w'
      · subst e
        simp only [upd_eq] at h
        cases hpc : s.pc t with
        | asleep x =>
          right
          have := hp t
          rw [hpc] at this
          simp only [wants]
          cases x <;> cases v <;> simp at this ⊢
        | woken x => left; exact ih t x (.inl hpc)
        | returned x => left; exact ih t x (.inr hpc)
        | idle => rw [hpc] at h; simp [wake] at h
      · simp only [upd_ne _ _ e] at h
        exact .inl (ih t w h)
    | spurious u => exact hp.elim
    | back u =>
      simp only [step] at hs
      split at hs
      · rename_i x hx
        injection hs with hs; subst hs
        by_cases e : t = u
        · subst e; exact ih t x (.inl hx)
        · simp only [upd_ne _ _ e] at h
          exact ih t w h
      · cases hs

theorem reach_alone {s : St} (h : Reach Alone s) :
    (∀ t u, sleeps (s.pc t) = true → sleeps (s.pc u) = true → t = u) ∧ ∀ t w, s.pc t = .asleep w → s.on ≠ w := by
  induction h with
  | start flag => simp [init, sleeps]
  | @next s s' op hr hl hp hs ih =>
    obtain ⟨ih1, ih2⟩ := ih
    cases op with
    | wait u want =>
      simp only [step] at hs
      split at hs
      · split at hs
        · injection hs with hs; subst hs
          refine ⟨?_, ?_⟩
          · intro a b ha hb
            by_cases ea : a = u
            · subst ea; simp [upd, sleeps] at ha
            · by_cases eb : b = u
              · subst eb; simp [upd, sleeps] at hb
              · simp only [upd_ne _ _ ea, upd_ne _ _ eb] at ha hb
                exact ih1 a b ha hb
          · intro a w ha
            by_cases ea : a = u
            · subst ea; simp [upd] at ha
            · simp only [upd_ne _ _ ea] at ha
              exact ih2 a w ha
        · rename_i hne
          injection hs with hs; subst hs
          have hp : ∀ u, sleeps (s.pc u) = false := hp
          refine ⟨?_, ?_⟩
          · intro a b ha hb
            by_cases ea : a = u
            · by_cases eb : b = u
              · rw [ea, eb]
              · simp only [upd_ne _ _ eb] at hb
                rw [hp b] at hb; cases hb
            · simp only [upd_ne _ _ ea] at ha
              rw [hp a] at ha; cases ha
          · intro a w ha
            by_cases ea : a = u
            · subst ea; simp only [upd_eq] at ha
              injection ha with ha; subst ha
              exact hne
            · simp only [upd_ne _ _ ea] at ha
              exact ih2 a w ha
      · cases hs
    | set v w' =>
      simp only [step] at hs
      injection hs with hs; subst hs
      have hl : sleeps (s.pc w') = true ∨ ∀ u, sleeps (s.pc u) = false := hl
      have none' : ∀ a, sleeps (upd s.pc w' (wake (s.pc w')) a) = false := by
        intro a
        by_cases ea : a = w'
        · subst ea; rw [upd_eq]; cases s.pc a <;> rfl
        · rw [upd_ne _ _ ea]
          rcases hl with hl | hl
          · cases hx : sleeps (s.pc a)
            · rfl
            · exact absurd (ih1 a w' hx hl) ea
          · exact hl a
      refine ⟨?_, ?_⟩
      · intro a b ha hb
        rw [none' a] at ha; cases ha
      · intro a w ha
        have := none' a
        simp only at ha
        rw [ha] at this; cases this
    | spurious u =>
      simp only [step] at hs
      split at hs
      · injection hs with hs; subst hs
        refine ⟨?_, ?_⟩
        · intro a b ha hb
          have hw : sleeps (wake (s.pc u)) = false := by cases s.pc u <;> rfl
          by_cases ea : a = u
          · subst ea; simp only [upd_eq] at ha; rw [hw] at ha; cases ha
          · by_cases eb : b = u
            · subst eb; simp only [upd_eq] at hb; rw [hw] at hb; cases hb
            · simp only [upd_ne _ _ ea, upd_ne _ _ eb] at ha hb
              exact ih1 a b ha hb
        · intro a w ha
          by_cases ea : a = u
          · subst ea; simp only [upd_eq] at ha
            cases hx : s.pc a <;> rw [hx] at ha <;> simp [wake] at ha
          · simp only [upd_ne _ _ ea] at ha
            exact ih2 a w ha
      · cases hs
    | back u =>
      simp only [step] at hs
      split at hs
      · injection hs with hs; subst hs
        refine ⟨?_, ?_⟩
        · intro a b ha hb
          by_cases ea : a = u
          · subst ea; simp [upd, sleeps] at ha
          · by_cases eb : b = u
            · subst eb; simp [upd, sleeps] at hb
            · simp only [upd_ne _ _ ea, upd_ne _ _ eb] at ha hb
              exact ih1 a b ha hb
        · intro a w ha
          by_cases ea : a = u
          · subst ea; simp [upd] at ha
          · simp only [upd_ne _ _ ea] at ha
            exact ih2 a w ha
      · cases hs

end Foxxll.Switch

namespace Foxxll.Shared

variable {V : Type} [DecidableEq V]

theorem upd_eq {α : Type} (f : Nat → α) (t : Nat) (a : α) : upd f t a t = a := by simp [upd]
theorem upd_ne {α : Type} (f : Nat → α) {t u : Nat} (a : α) (h : u ≠ t) : upd f t a u = f u := by simp [upd, h]

/-- A thread that sleeps although its value is current will be notified. -/
def Covered (s : St V) : Prop := ∀ t v, s.pc t = .asleep v → s.state = v → ∃ u, s.pc u = .notify

theorem covered_step {s s' : St V} {op : Op V} (h : Covered s) (hs : step s op = some s') : Covered s' := by
  intro t v ht hv
  cases op with
  | call u x =>
    simp only [step] at hs
    split at hs
    · rename_i hu
      injection hs with hs; subst hs
      by_cases e : t = u
      · subst e; simp [upd] at ht
      · simp only [upd_ne _ _ e] at ht
        obtain ⟨y, hy⟩ := h t v ht hv
        have : y ≠ u := by intro e; subst e; rw [hu] at hy; cases hy
        exact ⟨y, by simp only [upd_ne _ _ this]; exact hy⟩
    · cases hs
  | done u =>
    simp only [step] at hs
    split at hs
    · rename_i hu
      injection hs with hs; subst hs
      by_cases e : t = u
      · subst e; simp [upd] at ht
      · simp only [upd_ne _ _ e] at ht
        obtain ⟨y, hy⟩ := h t v ht hv
        have : y ≠ u := by intro e; subst e; rw [hu] at hy; cases hy
        exact ⟨y, by simp only [upd_ne _ _ this]; exact hy⟩
    · cases hs
  | set u x =>
    simp only [step] at hs
    split at hs
    · injection hs with hs; subst hs
      exact ⟨u, upd_eq _ _ _⟩
    · cases hs
  | go u =>
    simp only [step] at hs
    split at hs
    · rename_i x hu
      injection hs with hs; subst hs
      by_cases e : t = u
      · subst e
        simp only [upd_eq] at ht
        split at ht
        · cases ht
        · rename_i hne
          injection ht with ht
          exact absurd (ht.trans hv.symm) hne
      · simp only [upd_ne _ _ e] at ht
        obtain ⟨y, hy⟩ := h t v ht hv
        have : y ≠ u := by intro e; subst e; rw [hu] at hy; cases hy
        exact ⟨y, by simp only [upd_ne _ _ this]; exact hy⟩
    · injection hs with hs; subst hs
      by_cases e : t = u
      · subst e; simp [upd] at ht
      · simp only [upd_ne _ _ e] at ht
        cases hx : s.pc t <;> rw [hx] at ht <;> simp [wake] at ht
    · cases hs
  | spurious u =>
    simp only [step] at hs
    split at hs
    · rename_i x hu
      injection hs with hs; subst hs
      by_cases e : t = u
      · subst e; simp [upd] at ht
      · simp only [upd_ne _ _ e] at ht
        obtain ⟨y, hy⟩ := h t v ht hv
        have : y ≠ u := by intro e; subst e; rw [hu] at hy; cases hy
        exact ⟨y, by simp only [upd_ne _ _ this]; exact hy⟩
    · cases hs

theorem reach_covered {s : St V} (h : Reach s) : Covered s := by
  induction h with
  | start v => intro t w ht; simp [init] at ht
  | next op _ hs ih => exact covered_step ih hs

/-- `go` is possible at `test` and at `notify`, and stays so until it is done. -/
theorem test_stays {s s' : St V} {op : Op V} {t : Nat} {v : V} (hs : step s op = some s') (ht : s.pc t = .test v)
    (hop : op ≠ .go t) : s'.pc t = .test v := by
  cases op with
  | call u x =>
    simp only [step] at hs
    split at hs
    · rename_i hu
      injection hs with hs; subst hs
      have : t ≠ u := by intro e; subst e; rw [hu] at ht; cases ht
      simp only [upd_ne _ _ this]; exact ht
    · cases hs
  | done u =>
    simp only [step] at hs
    split at hs
    · rename_i hu
      injection hs with hs; subst hs
      have : t ≠ u := by intro e; subst e; rw [hu] at ht; cases ht
      simp only [upd_ne _ _ this]; exact ht
    · cases hs
  | set u x =>
    simp only [step] at hs
    split at hs
    · rename_i hu
      injection hs with hs; subst hs
      have : t ≠ u := by intro e; subst e; rw [hu] at ht; cases ht
      simp only [upd_ne _ _ this]; exact ht
    · cases hs
  | go u =>
    have : t ≠ u := by intro e; subst e; exact hop rfl
    simp only [step] at hs
    split at hs
    · injection hs with hs; subst hs
      simp only [upd_ne _ _ this]; exact ht
    · injection hs with hs; subst hs
      simp only [upd_ne _ _ this, ht]; rfl
    · cases hs
  | spurious u =>
    simp only [step] at hs
    split at hs
    · rename_i x hu
      injection hs with hs; subst hs
      have : t ≠ u := by intro e; subst e; rw [hu] at ht; cases ht
      simp only [upd_ne _ _ this]; exact ht
    · cases hs

theorem notify_stays {s s' : St V} {op : Op V} {t : Nat} (hs : step s op = some s') (ht : s.pc t = .notify)
    (hop : op ≠ .go t) : s'.pc t = .notify := by
  cases op with
  | call u x =>
    simp only [step] at hs
    split at hs
    · rename_i hu
      injection hs with hs; subst hs
      have : t ≠ u := by intro e; subst e; rw [hu] at ht; cases ht
      simp only [upd_ne _ _ this]; exact ht
    · cases hs
  | done u =>
    simp only [step] at hs
    split at hs
    · rename_i hu
      injection hs with hs; subst hs
      have : t ≠ u := by intro e; subst e; rw [hu] at ht; cases ht
      simp only [upd_ne _ _ this]; exact ht
    · cases hs
  | set u x =>
    simp only [step] at hs
    split at hs
    · rename_i hu
      injection hs with hs; subst hs
      have : t ≠ u := by intro e; subst e; rw [hu] at ht; cases ht
      simp only [upd_ne _ _ this]; exact ht
    · cases hs
  | go u =>
    have : t ≠ u := by intro e; subst e; exact hop rfl
    simp only [step] at hs
    split at hs
    · injection hs with hs; subst hs
      simp only [upd_ne _ _ this]; exact ht
    · injection hs with hs; subst hs
      simp only [upd_ne _ _ this, ht]; rfl
    · cases hs
  | spurious u =>
    simp only [step] at hs
    split at hs
    · rename_i x hu
      injection hs with hs; subst hs
      have : t ≠ u := by intro e; subst e; rw [hu] at ht; cases ht
      simp only [upd_ne _ _ this]; exact ht
    · cases hs

/-- A sleeper sleeps on or goes back to the test. -/
theorem asleep_next {s s' : St V} {op : Op V} {t : Nat} {v : V} (hs : step s op = some s') (ht : s.pc t = .asleep v) :
    s'.pc t = .asleep v ∨ s'.pc t = .test v := by
  cases op with
  | call u x =>
    simp only [step] at hs
    split at hs
    · rename_i hu
      injection hs with hs; subst hs
      have : t ≠ u := by intro e; subst e; rw [hu] at ht; cases ht
      simp only [upd_ne _ _ this]; exact .inl ht
    · cases hs
  | done u =>
    simp only [step] at hs
    split at hs
    · rename_i hu
      injection hs with hs; subst hs
      have : t ≠ u := by intro e; subst e; rw [hu] at ht; cases ht
      simp only [upd_ne _ _ this]; exact .inl ht
    · cases hs
  | set u x =>
    simp only [step] at hs
    split at hs
    · rename_i hu
      injection hs with hs; subst hs
      have : t ≠ u := by intro e; subst e; rw [hu] at ht; cases ht
      simp only [upd_ne _ _ this]; exact .inl ht
    · cases hs
  | go u =>
    simp only [step] at hs
    split at hs
    · rename_i x hu
      injection hs with hs; subst hs
      have : t ≠ u := by intro e; subst e; rw [hu] at ht; cases ht
      simp only [upd_ne _ _ this]; exact .inl ht
    · rename_i hu
      injection hs with hs; subst hs
      have : t ≠ u := by intro e; subst e; rw [hu] at ht; cases ht
      simp only [upd_ne _ _ this, ht]; exact .inr rfl
    · cases hs
  | spurious u =>
    simp only [step] at hs
    split at hs
    · rename_i x hu
      injection hs with hs; subst hs
      by_cases e : t = u
      · subst e
        rw [ht] at hu; injection hu with hu; subst hu
        simp only [upd_eq]; simp [wake]
      · simp only [upd_ne _ _ e]; exact .inl ht
    · cases hs

end Foxxll.Shared
