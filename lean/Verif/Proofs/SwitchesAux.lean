/-
Auxiliary lemmas for the theorems of `Verif.Props.Switches`.
-/
import Verif.Proofs.Switches
import Verif.Spec.Switches
set_option linter.unusedSimpArgs false
set_option linter.unusedVariables false

namespace Foxxll.Switch

end Foxxll.Switch

namespace Foxxll.Shared

variable {V : Type} [DecidableEq V]

theorem Exec.reach (e : Exec V) : ∀ n, Reach (e.st n)
  | 0 => e.start
  | n + 1 => .next (e.op n) (e.reach n) (e.steps n)

/-- The first time a step is taken, a property kept by all other steps still holds. -/
theorem until_go (e : Exec V) (t : Nat) (p : St V → Prop)
    (keep : ∀ n, p (e.st n) → e.op n ≠ .go t → p (e.st (n + 1))) :
    ∀ d n, p (e.st n) → e.op (n + d) = .go t → ∃ m, n ≤ m ∧ p (e.st m) ∧ e.op m = .go t
  | 0, n, hp, ho => ⟨n, Nat.le_refl _, hp, ho⟩
  | d + 1, n, hp, ho => by
    by_cases hn : e.op n = .go t
    · exact ⟨n, Nat.le_refl _, hp, hn⟩
    · obtain ⟨m, h1, h2, h3⟩ := until_go e t p keep d (n + 1) (keep n hp hn) (by rw [← ho]; congr 1; omega)
      exact ⟨m, by omega, h2, h3⟩

/-- A fair run: thread 0 waits for 1 and sleeps, thread 1 sets 1 and notifies, thread 0 returns, and
from then on thread 2 keeps asking for the value 1. -/
def exOp (n : Nat) : Op Nat :=
  if n = 0 then .call 0 1 else if n = 1 then .go 0 else if n = 2 then .set 1 1 else if n = 3 then .go 1
  else if n = 4 then .go 0 else if n % 3 = 2 then .call 2 1 else if n % 3 = 0 then .go 2 else .done 2

def exPc2 (n : Nat) : Pc Nat :=
  if n ≤ 5 then .idle else if n % 3 = 0 then .test 1 else if n % 3 = 1 then .returned 1 else .idle

def exSt (n : Nat) : St Nat :=
  { state := if n ≤ 2 then 0 else 1,
    pc := fun t =>
      if t = 0 then (if n = 0 then .idle else if n = 1 then .test 1 else if n ≤ 3 then .asleep 1 else if n = 4 then .test 1 else .returned 1)
      else if t = 1 then (if n = 3 then .notify else .idle)
      else if t = 2 then exPc2 n else .idle }

theorem exSt_steps (n : Nat) : step (exSt n) (exOp n) = some (exSt (n + 1)) := by
  by_cases hn : n < 5
  · have : n = 0 ∨ n = 1 ∨ n = 2 ∨ n = 3 ∨ n = 4 := by omega
    rcases this with rfl | rfl | rfl | rfl | rfl <;>
      (simp only [step, exOp, exSt]; simp only [exPc2, upd, wake]
       congr 1
       simp
       try (funext t; by_cases h0 : t = 0 <;> by_cases h1 : t = 1 <;> by_cases h2 : t = 2 <;> simp [h0, h1, h2, wake, upd] <;> (try split) <;> simp_all))
  · have h3 : n % 3 = 0 ∨ n % 3 = 1 ∨ n % 3 = 2 := by omega
    have e0 : ¬ n = 0 := by omega
    have e1 : ¬ n = 1 := by omega
    have e2 : ¬ n = 2 := by omega
    have e3 : ¬ n = 3 := by omega
    have e4 : ¬ n = 4 := by omega
    have l2 : ¬ n ≤ 2 := by omega
    have l3 : ¬ n ≤ 3 := by omega
    have m2 : ¬ n + 1 ≤ 2 := by omega
    have m3 : ¬ n + 1 ≤ 3 := by omega
    have f3 : ¬ n + 1 = 3 := by omega
    have f4 : ¬ n + 1 = 4 := by omega
    have f5 : ¬ n + 1 ≤ 5 := by omega
    rcases h3 with h3 | h3 | h3
    · have l5 : ¬ n ≤ 5 := by omega
      have g : (n + 1) % 3 = 1 := by omega
      simp [exOp, exSt, exPc2, step, e0, e1, e2, e3, e4, l2, l3, l5, m2, m3, f3, f4, f5, h3, g]
      funext t
      simp only [upd]
      by_cases h2 : t = 2 <;> simp [h2]
    · have l5 : ¬ n ≤ 5 := by omega
      have g : (n + 1) % 3 = 2 := by omega
      simp [exOp, exSt, exPc2, step, e0, e1, e2, e3, e4, l2, l3, l5, m2, m3, f3, f4, f5, h3, g]
      funext t
      simp only [upd]
      by_cases h2 : t = 2 <;> simp [h2]
    · have g : (n + 1) % 3 = 0 := by omega
      have h5 : exPc2 n = .idle := by simp [exPc2, h3]
      simp [exOp, exSt, step, e0, e1, e2, e3, e4, l2, l3, m2, m3, f3, f4, h3, h5]
      funext t
      simp only [upd]
      by_cases h2 : t = 2 <;> simp [h2, exPc2, f5, g]

end Foxxll.Shared
