import Verif.Proofs.PoolStealAgree
import Verif.Props.PoolFailAgree
/-
The two models of the pools agree on `steal` and `resize` also when these wait.
-/
namespace Foxxll.PoolFail

variable {V : Type}

/-- `steal` with no free block and no write that has ended: requests end while it sleeps. -/
theorem C121_agree_sleep (ordered : Bool) (s s1 : Pool.St V) (h : Pool.Reach ordered s) (hi : s.pc = .idle) (hf : s.wfree = []) (hn : firstDone s = none) (rs : List Nat)
    (hs : Serves ordered s rs s1) (d : List Nat) :
    step (view d s) (.steal (sleeping s rs)) = out d (Pool.step ordered s1 (.steal (firstDone s1) (allDone s1))) := by
  have hq : s.q.Pairwise (fun x y => x.id < y.id) := (Pool.reach_inv h).ci.ids
  have h1 := C121_agree_steal ordered s1 ((serves_view d hq hs).2.2.1.trans hi) d
  simp only [step] at h1 ⊢
  rw [wsteal_asleep d hq hf hn hs]
  exact h1

/-- `resize` of the write pool: it grows at once, or steals blocks one after the other. -/
theorem C121_agree_resize (ordered : Bool) (s s1 : Pool.St V) (h : Pool.Reach ordered s) (hi : s.pc = .idle) (n : Nat) (h1 : Pool.step ordered s (.resizeW n) = .ok s1) (d : List Nat) :
    (s1.pc = .idle → step (view d s) (.resizeW n n []) = .ok (view d s1)) ∧
    (s1.pc ≠ .idle → ∀ evss s', Shrinks ordered s1 evss s' → ∀ k, ∃ d', step (view d s) (.resizeW n k evss) = .ok (view d' s')) := by
  have hq : s.q.Pairwise (fun x y => x.id < y.id) := (Pool.reach_inv h).ci.ids
  have hw : wsize (view d s) = Pool.wsize s := by simp [wsize, Pool.wsize, view]
  simp only [Pool.step] at h1
  rw [if_pos hi] at h1
  injection h1 with h1
  unfold Pool.wresize at h1
  simp only [step, wresize, hw]
  by_cases hlt : Pool.wsize s < n
  · rw [if_pos hlt] at h1
    refine ⟨fun _ => ?_, fun hne => absurd (by rw [← h1]; exact hi) hne⟩
    rw [if_pos hlt, if_neg (by omega), ← h1]
    rfl
  · rw [if_neg hlt] at h1
    refine ⟨fun hid => (by rw [← h1] at hid; cases hid), fun _ evss s' hsh k => ?_⟩
    rw [if_neg hlt]
    have hv : view d s1 = view d s := by rw [← h1]; rfl
    rw [← hv]
    exact shrinks_view hsh d _ (by rw [← h1]) (by rw [← h1]; exact hq)

/-- The pool has one block, which is being written; `resize(0)` sleeps until the write has ended. -/
example : ∃ s s1 s' : Pool.St Nat, Pool.Reach true s ∧ s.pc = .idle ∧ Pool.step true s (.resizeW 0) = .ok s1 ∧ s1.pc ≠ .idle ∧
    Shrinks true s1 [sleeping s1 [0]] s' ∧ s'.pc = .idle ∧ s'.wbusy = [] := by
  have h := Pool.Reach.start (ordered := true) 0 0 (fun _ => 0) (fun _ => 0)
  have h := h.next .alloc trivial rfl
  have h := h.next (.write 0 7 [] false) ⟨by show 0 ∈ [0]; simp, fun e he => by cases he⟩ rfl
  refine ⟨_, _, _, h, rfl, rfl, ?_, .sleep (k := 0) [0] rfl rfl rfl (.one 0 .none rfl) rfl (.stop rfl rfl), rfl, rfl⟩
  intro hc
  cases hc

end Foxxll.PoolFail
