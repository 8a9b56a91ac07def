import Verif.Proofs.AlignedHeap
/-
Auxiliary lemmas for the theorems of `Verif.Props.AlignedHeap`.
-/
namespace Foxxll.AlignedHeap
open Foxxll.Arith (Mem ptrSize)

/-- Answers with a fixed content of fresh memory. -/
def ans (buf re : Nat) : Ans := ⟨buf, re, fun a => a % 7⟩

theorem ex_contract : Allowed {} (.alloc 16 8 0 [ans 100 500, ans 200 0]) ∧ NoFail {} (.alloc 16 8 0 [ans 100 500, ans 200 0]) := by
  have e3 : (attempt 16 8 0 (ans 100 500) {}).2.may = false := by decide +kernel
  have e2 : (attempt 16 8 0 (ans 100 500) {}).2.live = [] := by decide +kernel
  have no : ∀ h' : Heap, h'.may = false → ∀ h'', attempt 16 8 0 (ans 200 0) h' ≠ (.retry, h'') := by
    intro h' e h'' e4
    unfold attempt at e4
    simp only [e] at e4
    rw [if_neg (by decide), if_neg (by decide), if_neg (by simp)] at e4
    unfold store at e4
    split at e4 <;> cases e4
  refine ⟨⟨by decide, by decide, Or.inr ⟨by decide, by decide, fun p hp => by cases hp⟩, fun h' e => ?_⟩, ?_, fun h' e => ?_⟩
  · rw [e] at e2 e3
    refine ⟨Or.inr ⟨by decide, by decide, ?_⟩, fun h'' e4 => absurd e4 (no h' e3 h'')⟩
    intro p hp
    simp only at e2
    rw [e2] at hp
    cases hp
  · intro _ _; decide
  · rw [e] at e3
    exact ⟨fun h => absurd (e3.symm.trans h) (by simp), fun h'' e4 => absurd e4 (no h' e3 h'')⟩

end Foxxll.AlignedHeap
