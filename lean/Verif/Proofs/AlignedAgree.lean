import Verif.Spec.AlignedHeap
/-
Helper lemmas: the model of aligned allocation on a heap and that of a single call agree.
-/
namespace Foxxll.AlignedHeap
open Foxxll.Arith (Mem ptrSize AOut)

/-- The outcome on the heap, as the model of a single call names it: the buffer kept is the first in the list. -/
def view : Res × Heap → Option AOut
  | (.ok ptr buf, h) => some (.done ⟨buf, (h.live.head?.map (·.2)).getD 0, ptr⟩)
  | (.badAlloc, _) => some .badAlloc
  | (.assertFail, _) => some .assertFail
  | (.retry, _) => some .retry
  | (.ub, _) => none

theorem place_le (A metaSize buf : Nat) : place A metaSize buf ≤ buf + 8 + A := by
  unfold place ptrSize; omega

theorem store_view {h : Heap} {result buf n : Nat} {l : List (Nat × Nat)} (hl : h.live = (buf, n) :: l) (h1 : buf + 8 ≤ result) (h2 : result ≤ buf + n) :
    view (store h result buf) = some (.done ⟨buf, n, result⟩) := by
  have hc : covers h.live (result - ptrSize) ptrSize = true := by
    unfold covers ptrSize
    rw [hl]
    simp only [List.any_cons, Bool.or_eq_true, decide_eq_true_eq]
    left; omega
  unfold store
  rw [if_pos hc]
  simp [view, hl]

theorem attempt_view (A size metaSize : Nat) (ans : Ans) (h : Heap) (hf : A + 8 + metaSize + size < 2 ^ 64) :
    view (attempt A size metaSize ans h) = some (Arith.attempt A size metaSize h.may ans.buf ans.re) := by
  have hn : allocSize A size metaSize = A + ptrSize + metaSize + size := by
    unfold allocSize W ptrSize
    exact Nat.mod_eq_of_lt hf
  have hp := place_le A metaSize ans.buf
  have hr : place A metaSize ans.buf - ans.buf < 8 ∨ reallocSize A size metaSize ans.buf = place A metaSize ans.buf - ans.buf + metaSize + size := by
    right
    unfold reallocSize W
    exact Nat.mod_eq_of_lt (by omega)
  have e : Arith.placeResult A metaSize ans.buf = place A metaSize ans.buf := rfl
  unfold attempt Arith.attempt
  simp only [hn, e]
  by_cases h0 : ans.buf = 0
  · rw [if_pos h0, if_pos h0]; rfl
  · rw [if_neg h0, if_neg h0]
    by_cases h1 : place A metaSize ans.buf < ans.buf + ptrSize
    · rw [if_pos h1, if_pos (by unfold ptrSize at *; omega)]; rfl
    · rw [if_neg h1, if_neg (by unfold ptrSize at *; omega)]
      have hr : reallocSize A size metaSize ans.buf = place A metaSize ans.buf - ans.buf + metaSize + size := by
        rcases hr with hr | hr
        · unfold ptrSize at h1; omega
        · exact hr
      rw [hr]
      by_cases h2 : place A metaSize ans.buf - ans.buf + metaSize + size < A + ptrSize + metaSize + size ∧ h.may = true
      · rw [if_pos h2, if_pos h2]
        by_cases h3 : ans.buf ≠ ans.re
        · rw [if_pos h3, if_pos h3]
          split <;> rfl
        · rw [if_neg h3, if_neg h3]
          by_cases h4 : ans.buf + (place A metaSize ans.buf - ans.buf + metaSize + size) < place A metaSize ans.buf + size
          · rw [if_pos h4, if_pos h4]; rfl
          · rw [if_neg h4, if_neg h4]
            exact store_view rfl (by unfold ptrSize at h1; omega) (by omega)
      · rw [if_neg h2, if_neg h2]
        exact store_view rfl (by unfold ptrSize at h1; omega) (by unfold ptrSize at *; omega)

theorem retry_may {A size metaSize : Nat} {ans : Ans} {h h' : Heap} (hr : attempt A size metaSize ans h = (.retry, h')) : h'.may = false := by
  unfold attempt at hr
  simp only at hr
  split at hr
  · cases hr
  · split at hr
    · cases hr
    · split at hr
      · split at hr
        · split at hr <;> (injection hr with _ e; subst e; rfl)
        · split at hr
          · cases hr
          · unfold store at hr
            split at hr <;> cases hr
      · unfold store at hr
        split at hr <;> cases hr

theorem alloc_view (A size metaSize : Nat) (hf : A + 8 + metaSize + size < 2 ^ 64) : ∀ (l : List Ans) (h : Heap),
    (alignedAlloc A size metaSize l h).bind view = Arith.alignedAlloc A size metaSize h.may (l.map fun a => (a.buf, a.re)) := by
  intro l
  induction l with
  | nil => intro h; rfl
  | cons ans rest ih =>
    intro h
    have hv := attempt_view A size metaSize ans h hf
    unfold alignedAlloc
    simp only [List.map_cons, Arith.alignedAlloc]
    cases hq : attempt A size metaSize ans h with
    | mk r h' =>
      rw [hq] at hv
      cases r with
      | retry =>
        have hm := retry_may hq
        simp only [view, Option.some.injEq] at hv
        rw [← hv]
        have := ih h'
        rw [hm] at this
        exact this
      | ok p b => simp only [view, Option.some.injEq] at hv; rw [← hv]; rfl
      | badAlloc => simp only [view, Option.some.injEq] at hv; rw [← hv]; rfl
      | assertFail => simp only [view, Option.some.injEq] at hv; rw [← hv]; rfl
      | ub => cases hv

theorem no_ub (A size metaSize : Nat) (hf : A + 8 + metaSize + size < 2 ^ 64) : ∀ (l : List Ans) (h : Heap) {h' : Heap},
    alignedAlloc A size metaSize l h ≠ some (.ub, h') := by
  intro l
  induction l with
  | nil => intro h h' e; cases e
  | cons ans rest ih =>
    intro h h' e
    have hv := attempt_view A size metaSize ans h hf
    unfold alignedAlloc at e
    cases hq : attempt A size metaSize ans h with
    | mk r h1 =>
      rw [hq] at hv e
      cases r with
      | retry => exact ih h1 e
      | ub => cases hv
      | _ => cases e

end Foxxll.AlignedHeap
