/-
Properties C27, C28 and C60: `onoff_switch` and `shared_state`.
-/
import Verif.Proofs.Switches
import Verif.Proofs.SwitchesAux
set_option linter.unusedSimpArgs false
set_option linter.unusedVariables false

namespace Foxxll.Switch

def AnyOp : St → Op → Prop := fun _ _ => True
def NoSpurious : St → Op → Prop := fun _ op => ∀ t, op ≠ .spurious t

/-! ## C27 -/

/-- **C27** is false: `wait_for_on` tests with `if`, so a spurious wake-up makes it return although
the switch has never been on. -/
theorem C27_false : ∃ s : St, Reach AnyOp s ∧ s.pc 0 = .returned true ∧ s.on = false ∧ s.seen 0 = false := by
  refine ⟨_, .next (.back 0) (.next (.spurious 0) (.next (.wait 0 true) (.start false) trivial trivial rfl) trivial trivial rfl) trivial trivial rfl, ?_⟩
  decide

/-- **C27** is false even on an implementation without spurious wake-ups: `off()` also notifies,
and releases a thread that waits for the switch to be on. -/
theorem C27_false_without_spurious :
    ∃ s : St, Reach NoSpurious s ∧ s.pc 0 = .returned true ∧ s.on = false ∧ s.seen 0 = false := by
  refine ⟨_, .next (.back 0) (.next (.set false 0) (.next (.wait 0 true) (.start false) trivial (by simp [NoSpurious]) rfl)
    (.inl rfl) (by simp [NoSpurious]) rfl) trivial (by simp [NoSpurious]) rfl, ?_⟩
  decide

/-- **C27**, partial: if there are no spurious wake-ups and nobody sets the switch to the value
opposite to what a sleeper waits for, a call returns only after the switch has had the wanted value
at some moment since the call. -/
theorem C27_partial {s : St} {t : Nat} {w : Bool} (h : Reach Quiet s) (hr : s.pc t = .returned w) : s.seen t = true :=
  reach_seen h t w (.inr hr)

example : ∃ s : St, Reach Quiet s ∧ s.pc 0 = .returned true ∧ s.pc 1 = .asleep true := by
  refine ⟨_, .next (.back 0) (.next (.set true 0) (.next (.wait 1 true) (.next (.wait 0 true) (.start false) trivial trivial rfl)
    trivial trivial rfl) (.inl rfl) ?_ rfl) trivial trivial rfl, by decide, by decide⟩
  intro u
  show upd _ _ _ u ≠ _
  simp only [upd]
  split
  · simp
  · simp only [init]; split <;> simp

/-! ## C60: waiters are released -/

/-- **C60** is false: with two waiters `on()` (one `notify_one`) releases only one of them; the
other sleeps on while the switch is on and nobody is about to return. -/
theorem C60_false : ∃ s : St, Reach NoSpurious s ∧ s.on = true ∧ s.pc 1 = .asleep true ∧ ∀ t w, s.pc t ≠ .woken w := by
  refine ⟨_, .next (.back 0) (.next (.set true 0) (.next (.wait 1 true) (.next (.wait 0 true) (.start false) trivial (by simp [NoSpurious]) rfl)
    trivial (by simp [NoSpurious]) rfl) (.inl rfl) (by simp [NoSpurious]) rfl) trivial (by simp [NoSpurious]) rfl, by decide, by decide, ?_⟩
  intro t w
  simp only [upd, init]
  split
  · simp
  · split <;> simp

/-- **C60**, partial: if calls do not overlap (at most one thread waits at a time), nobody sleeps
while the switch has the wanted value, with or without spurious wake-ups. -/
theorem C60_partial {s : St} {t : Nat} {w : Bool} (h : Reach Alone s) (hs : s.pc t = .asleep w) : s.on ≠ w :=
  (reach_alone h).2 t w hs

example : ∃ s : St, Reach Alone s ∧ s.pc 0 = .returned true ∧ s.pc 1 = .asleep false := by
  refine ⟨_, .next (.wait 1 false) (.next (.back 0) (.next (.set true 0) (.next (.wait 0 true) (.start false) trivial (fun _ => rfl) rfl)
    (.inl rfl) trivial rfl) trivial trivial rfl) trivial ?_ rfl, by decide, by decide⟩
  intro u
  simp only [upd, init]
  split
  · rfl
  · rfl

end Foxxll.Switch

namespace Foxxll.Shared

variable {V : Type} [DecidableEq V]

/-! ## C28 -/

/-- **C28** (safety).  The step with which `wait_for(v)` returns is taken in a state with value `v`
and leaves the value; spurious wake-ups and any number of threads allowed. -/
theorem C28_returns {s s' : St V} {op : Op V} {t : Nat} {v : V} (hs : step s op = some s')
    (h0 : s.pc t ≠ .returned v) (h1 : s'.pc t = .returned v) : op = .go t ∧ s.state = v ∧ s'.state = v := by
  cases op with
  | call u x =>
    simp only [step] at hs
    split at hs
    · injection hs with hs; subst hs
      by_cases e : t = u
      · subst e; simp [upd] at h1
      · simp only [upd_ne _ _ e] at h1; exact absurd h1 h0
    · cases hs
  | done u =>
    simp only [step] at hs
    split at hs
    · injection hs with hs; subst hs
      by_cases e : t = u
      · subst e; simp [upd] at h1
      · simp only [upd_ne _ _ e] at h1; exact absurd h1 h0
    · cases hs
  | set u x =>
    simp only [step] at hs
    split at hs
    · injection hs with hs; subst hs
      by_cases e : t = u
      · subst e; simp [upd] at h1
      · simp only [upd_ne _ _ e] at h1; exact absurd h1 h0
    · cases hs
  | go u =>
    simp only [step] at hs
    split at hs
    · injection hs with hs; subst hs
      by_cases e : t = u
      · subst e
        simp only [upd_eq] at h1
        split at h1
        · rename_i he
          injection h1 with h1
          exact ⟨rfl, by rw [← he, h1], by rw [← he, h1]⟩
        · cases h1
      · simp only [upd_ne _ _ e] at h1; exact absurd h1 h0
    · injection hs with hs; subst hs
      by_cases e : t = u
      · subst e; simp [upd] at h1
      · simp only [upd_ne _ _ e] at h1
        cases hx : s.pc t <;> rw [hx] at h1 <;> simp [wake] at h1
        rw [hx] at h0
        exact absurd (by rw [h1]) h0
    · cases hs
  | spurious u =>
    simp only [step] at hs
    split at hs
    · injection hs with hs; subst hs
      by_cases e : t = u
      · subst e; simp [upd] at h1
      · simp only [upd_ne _ _ e] at h1; exact absurd h1 h0
    · cases hs

/-- **C28** (no lost wake-up).  A thread sleeps while its value is current only if a `notify_all`
is still to come. -/
theorem C28_no_lost {s : St V} {t : Nat} {v : V} (h : Reach s) (ht : s.pc t = .asleep v) (hv : s.state = v) :
    ∃ u, s.pc u = .notify := reach_covered h t v ht hv

/-- Every thread that can go on (at the loop test or before its `notify_all`) eventually does. -/
def Exec.Fair (e : Exec V) : Prop := ∀ n t, (step (e.st n) (.go t)).isSome = true → ∃ m, n ≤ m ∧ e.op m = .go t

/-- **C28** (release).  In every fair run, with spurious wake-ups and any number of threads waiting
for any values: a thread waiting for a value that is set and kept returns. -/
theorem C28_released (e : Exec V) (hf : e.Fair) {n t : Nat} {v : V}
    (ht : (e.st n).pc t = .test v ∨ (e.st n).pc t = .asleep v) (hk : ∀ m, n ≤ m → (e.st m).state = v) :
    ∃ m, n ≤ m ∧ (e.st m).pc t = .returned v := by
  have A : ∀ n', n ≤ n' → (e.st n').pc t = .test v → ∃ m, n ≤ m ∧ (e.st m).pc t = .returned v := by
    intro n' hn' ht
    obtain ⟨m, hm, hop⟩ := hf n' t (by simp [step, ht])
    obtain ⟨m', h1, h2, h3⟩ := until_go e t (fun s => s.pc t = .test v)
      (fun k hk ho => test_stays (e.steps k) hk ho) (m - n') n' ht (by rw [← hop]; congr 1; omega)
    have hs := e.steps m'
    rw [h3] at hs
    simp only [step, h2] at hs
    injection hs with hs
    refine ⟨m' + 1, by omega, ?_⟩
    rw [← hs]
    simp only [upd_eq]
    rw [if_pos (hk m' (by omega)).symm]
  rcases ht with ht | ht
  · exact A n (Nat.le_refl _) ht
  · false_or_by_contra
    rename_i hno
    have stay : ∀ d, (e.st (n + d)).pc t = .asleep v := by
      intro d
      induction d with
      | zero => exact ht
      | succ d ih =>
        rcases asleep_next (e.steps (n + d)) ih with h | h
        · exact h
        · exact absurd (A (n + d + 1) (by omega) h) hno
    obtain ⟨u, hu⟩ := C28_no_lost (e.reach n) ht (hk n (Nat.le_refl _))
    obtain ⟨m, hm, hop⟩ := hf n u (by simp [step, hu])
    obtain ⟨m', h1, h2, h3⟩ := until_go e u (fun s => s.pc u = .notify)
      (fun k hk ho => notify_stays (e.steps k) hk ho) (m - n) n hu (by rw [← hop]; congr 1; omega)
    have hs := e.steps m'
    rw [h3] at hs
    simp only [step, h2] at hs
    injection hs with hs
    have h4 := stay (m' - n)
    have h5 := stay (m' + 1 - n)
    rw [show n + (m' - n) = m' by omega] at h4
    rw [show n + (m' + 1 - n) = m' + 1 by omega, ← hs] at h5
    have hne : t ≠ u := by intro e; subst e; rw [h4] at h2; cases h2
    simp only [upd_ne _ _ hne, h4, wake] at h5
    cases h5

def exExec : Exec Nat where
  st := exSt
  op := exOp
  start := by
    have : exSt 0 = init 0 := by
      simp [exSt, init]
      funext t
      by_cases h0 : t = 0 <;> by_cases h1 : t = 1 <;> by_cases h2 : t = 2 <;> simp [h0, h1, h2, exPc2]
    rw [this]
    exact .start 0
  steps := exSt_steps

example : exExec.Fair ∧ (exExec.st 2).pc 0 = .asleep 1 ∧ ∀ m, 3 ≤ m → (exExec.st m).state = 1 := by
  refine ⟨?_, rfl, ?_⟩
  · intro n t h
    have h : (step (exSt n) (.go t)).isSome = true := h
    by_cases h0 : t = 0
    · subst h0
      by_cases hn : n ≤ 4
      · exact ⟨4, hn, rfl⟩
      · exfalso
        simp [step, exSt, show n ≠ 0 by omega, show n ≠ 1 by omega, show ¬ n ≤ 3 by omega, show n ≠ 4 by omega] at h
    · by_cases h1 : t = 1
      · subst h1
        by_cases hn : n ≤ 3
        · exact ⟨3, hn, rfl⟩
        · exfalso
          simp [step, exSt, show n ≠ 3 by omega] at h
      · by_cases h2 : t = 2
        · subst h2
          refine ⟨3 * (n + 2), by omega, ?_⟩
          show exOp (3 * (n + 2)) = .go 2
          unfold exOp
          rw [if_neg (by omega), if_neg (by omega), if_neg (by omega), if_neg (by omega), if_neg (by omega), if_neg (by omega), if_pos (by omega)]
        · exfalso
          simp [step, exSt, h0, h1, h2] at h
  · intro m hm
    show (if m ≤ 2 then 0 else 1) = 1
    rw [if_neg (by omega)]

end Foxxll.Shared
