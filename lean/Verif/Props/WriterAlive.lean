import Verif.Proofs.WriterAlive
import Verif.Props.WriterFail
import Verif.Spec.WriterAlive
/-
The buffered writer with failing writes does not block itself.
-/
namespace Foxxll.WriterFail
open BufWriter (nBlocks batchSize)

variable {α : Type}

/-- **C153 is false** for a batch size not smaller than the number of buffers, as C18: `get_free_block` waits for ever though nothing has failed and no request is in flight. -/
theorem C153_false : ∃ s : St Nat, Reach (nBlocks 2) (batchSize 2) Legal s ∧ s.w.pc = .getting ∧ s.failed = [] ∧ (∀ b, s.w.reqs b = none) ∧
    ∀ op, Inside op → step (nBlocks 2) (batchSize 2) s op = .blocked := by
  have h := Reach.start (n := nBlocks 2) (wbs := batchSize 2) (legal := Legal) (fun _ => 0) (fun _ => ⟨0, 0⟩)
  have h := h.next .callGet trivial rfl
  have h := h.next (.work 0) trivial rfl
  have h := h.next (.callWrite 1 ⟨0, 0⟩) (by show 1 ∈ [1]; simp) rfl
  have h := h.next (.work 0) trivial rfl
  have h := h.next (.work 0) trivial rfl
  have h := h.next (.callWrite 0 ⟨0, 4096⟩) (by show 0 ∈ [0]; simp) rfl
  have h := h.next (.work 0) trivial rfl
  have h := h.next (.work 0) trivial rfl
  refine ⟨_, h, rfl, rfl, fun _ => rfl, fun op ho => ?_⟩
  cases ho <;> rfl

/-- C153 (partial: the batch and the buffers of the client are fewer than the buffers; see the theorem above).  Whatever has failed and however many exceptions the client
has got: inside a method or the destructor, a request in flight can end, and when none is in flight the client thread goes on, returns or gets an exception. -/
theorem C153_partial {n wbs : Nat} (hw : 0 < wbs) {s : St α} (h : Reach n wbs Legal s) (hpc : s.w.pc ≠ .idle) (hlt : wbs + s.w.held.length < n) :
    (∀ b bid, s.w.reqs b = some (bid, false) → step n wbs s (.done b) ≠ .blocked ∧ step n wbs s (.fail b) ≠ .blocked) ∧
    ((∀ b bid, s.w.reqs b ≠ some (bid, false)) → ∃ c, step n wbs s (.work c) ≠ .blocked ∧ step n wbs s (.work c) ≠ .ub) := by
  have hi := reach_inv hw h
  refine ⟨fun b bid hr => ?_, fun hn => ⟨0, work_alive hi hpc hlt hn, work_ub n wbs s 0⟩⟩
  constructor
  all_goals
    simp only [step, hr]
    split
    · simp
    · exact lift_some ⟨_, by simp only [BufWriter.step, hr]; rfl⟩

/-- After an exception out of `flush` the client calls `get_free_block`, and a failed write is in the list. -/
example : ∃ s : St Nat, Reach (nBlocks 3) (batchSize 1) Legal s ∧ s.w.pc = .getting ∧ s.thrown = 1 ∧ s.failed ≠ [] ∧ 1 + s.w.held.length < nBlocks 3 ∧
    ∀ b bid, s.w.reqs b ≠ some (bid, false) := by
  have h := Reach.start (n := nBlocks 3) (wbs := batchSize 1) (legal := Legal) (fun _ => 0) (fun _ => ⟨0, 0⟩)
  have h := h.next .callGet trivial rfl
  have h := h.next (.work 0) trivial rfl
  have h := h.next (.callWrite 2 ⟨0, 0⟩) (by show 2 ∈ [2]; simp) rfl
  have h := h.next (.work 0) trivial rfl
  have h := h.next (.work 0) trivial rfl
  have h := h.next .callFlush trivial rfl
  have h := h.next (.work 0) trivial rfl
  have h := h.next (.fail 2) trivial rfl
  have h := h.next (.work 0) trivial rfl
  have h := h.threw (.work 0) trivial rfl
  have h := h.next .callGet trivial rfl
  refine ⟨_, h, rfl, rfl, List.cons_ne_nil _ _, by decide, fun b bid hc => ?_⟩
  by_cases hb : b = 2
  · subst hb; cases hc
  · replace hc : BufWriter.upd (BufWriter.upd (fun _ => none) 2 (some (⟨0, 0⟩, false))) 2 (some (⟨0, 0⟩, true)) b = some (bid, false) := hc
    simp [BufWriter.upd, hb] at hc

/-- A method is not executed for ever: without calls of the client there are only finitely many steps, for any batch size, also after exceptions. -/
theorem C153_terminates {n wbs : Nat} (hw : 0 < wbs) (run : Nat → St α) (h0 : Reach n wbs Legal (run 0)) :
    ¬ ∀ i, ∃ op, Inside op ∧ step n wbs (run i) op = .ok (run (i + 1)) := by
  intro h
  have hreach : ∀ i, Reach n wbs Legal (run i) := by
    intro i
    induction i with
    | zero => exact h0
    | succ i ih =>
      obtain ⟨op, ho, hs⟩ := h i
      exact ih.next op (by cases ho <;> trivial) hs
  have hdec : ∀ i, left n (run (i + 1)) < left n (run i) := by
    intro i
    have hi := reach_inv hw (hreach i)
    have hi' := reach_inv hw (hreach (i + 1))
    obtain ⟨op, ho, hs⟩ := h i
    cases ho with
    | work c => exact work_left hi hs
    | done b =>
      simp only [step] at hs
      split at hs
      · split at hs
        · cases hs
        · obtain ⟨w, h1, h2⟩ := lift_ok hs
          rw [h2] at hi' ⊢
          exact left_less (BufWriter.done_msr hi'.base h1)
      · cases hs
    | fail b =>
      simp only [step] at hs
      split at hs
      · split at hs
        · cases hs
        · obtain ⟨w, h1, h2⟩ := lift_ok hs
          rw [h2] at hi' ⊢
          exact left_less (BufWriter.done_msr hi'.base h1)
      · cases hs
  have : ∀ i, left n (run i) + i ≤ left n (run 0) := by
    intro i
    induction i with
    | zero => omega
    | succ i ih => have := hdec i; omega
  have := this (left n (run 0) + 1)
  omega

/-- Hence from inside a method there are steps after which the client returns, gets an exception or is terminated, or, after an exception, undefined behaviour (`C143_ub_false`). -/
theorem C153_ends {n wbs : Nat} (hw : 0 < wbs) {s : St α} (h : Reach n wbs Legal s) (hlt : wbs + s.w.held.length < n) :
    ∃ s', Quiet n wbs s s' ∧ (s'.w.pc = .idle ∨ ∃ op, Inside op ∧
      ((∃ s'', step n wbs s' op = .threw s'') ∨ step n wbs s' op = .terminated ∨ step n wbs s' op = .ub ∧ 0 < s'.thrown)) := by
  have key : ∀ (k : Nat) (s' : St α), left n s' < k → Reach n wbs Legal s' → Quiet n wbs s s' → (s'.w.pc ≠ .idle → wbs + s'.w.held.length < n) →
      ∃ s', Quiet n wbs s s' ∧ (s'.w.pc = .idle ∨ ∃ op, Inside op ∧
      ((∃ s'', step n wbs s' op = .threw s'') ∨ step n wbs s' op = .terminated ∨ step n wbs s' op = .ub ∧ 0 < s'.thrown)) := by
    intro k
    induction k with
    | zero => intro s' hk; omega
    | succ k ih =>
      intro s' hk hr hq hl
      by_cases hpc : s'.w.pc = .idle
      · exact ⟨s', hq, .inl hpc⟩
      have hi := reach_inv hw hr
      have fin : ∀ op, Inside op → step n wbs s' op ≠ .blocked → (∀ s'', step n wbs s' op ≠ .ok s'') → ((∃ s'', step n wbs s' op = .threw s'') ∨
          step n wbs s' op = .terminated ∨ step n wbs s' op = .ub ∧ 0 < s'.thrown) := by
        intro op _ hb hok
        cases hs : step n wbs s' op with
        | ok s1 => exact absurd hs (hok s1)
        | threw s1 => exact .inl ⟨s1, rfl⟩
        | terminated => exact .inr (.inl rfl)
        | blocked => exact absurd hs hb
        | ub =>
          refine .inr (.inr ⟨rfl, ?_⟩)
          rcases Nat.eq_zero_or_pos s'.thrown with h0 | h0
          · exact absurd hs ((C143_before hw hr h0).2.2 op)
          · exact h0
      obtain ⟨c1, c2⟩ := C153_partial hw hr hpc (hl hpc)
      by_cases hp : ∃ b bid, s'.w.reqs b = some (bid, false)
      · obtain ⟨b, bid, hb⟩ := hp
        by_cases hok : ∃ s1, step n wbs s' (.done b) = .ok s1
        · obtain ⟨s1, hs⟩ := hok
          have hr1 := hr.next (.done b) trivial hs
          have hi1 := reach_inv hw hr1
          have hd := hs
          simp only [step, hb] at hd
          split at hd
          · cases hd
          · obtain ⟨w, h1, h2⟩ := lift_ok hd
            have hle : left n s1 < left n s' := by rw [h2] at hi1 ⊢; exact left_less (BufWriter.done_msr hi1.base h1)
            refine ih s1 (by omega) hr1 (hq.next (.done b) hs) (fun _ => ?_)
            have : w.held = s'.w.held := by
              simp only [BufWriter.step, hb, Option.some.injEq] at h1
              rw [← h1]
            rw [h2]
            show wbs + w.held.length < n
            rw [this]
            exact hl hpc
        · exact ⟨s', hq, .inr ⟨.done b, .done b, fin _ (.done b) (c1 b bid hb).1 (fun s1 hs => hok ⟨s1, hs⟩)⟩⟩
      · obtain ⟨c, hc, _⟩ := c2 (fun b bid hb => hp ⟨b, bid, hb⟩)
        by_cases hok : ∃ s1, step n wbs s' (.work c) = .ok s1
        · obtain ⟨s1, hs⟩ := hok
          have hle := work_left hi hs
          refine ih s1 (by omega) (hr.next (.work c) trivial hs) (hq.next (.work c) hs) (fun hne => ?_)
          rcases work_held hi hs with h1 | h1
          · rw [h1]; exact hl hpc
          · exact absurd h1 hne
        · exact ⟨s', hq, .inr ⟨.work c, .work c, fin _ (.work c) hc (fun s1 hs => hok ⟨s1, hs⟩)⟩⟩
  exact key (left n s + 1) s (by omega) h .refl (fun _ => hlt)

/-- The client is in `flush`, with a block in the batch. -/
example : ∃ s : St Nat, Reach (nBlocks 3) (batchSize 1) Legal s ∧ s.w.pc = .flushing ∧ s.w.reqs 2 = none ∧ s.w.batch = [(0, 2)] ∧ 1 + s.w.held.length < nBlocks 3 := by
  have h := Reach.start (n := nBlocks 3) (wbs := batchSize 1) (legal := Legal) (fun _ => 0) (fun _ => ⟨0, 0⟩)
  have h := h.next .callGet trivial rfl
  have h := h.next (.work 0) trivial rfl
  have h := h.next (.callWrite 2 ⟨0, 0⟩) (by show 2 ∈ [2]; simp) rfl
  have h := h.next (.work 0) trivial rfl
  have h := h.next (.work 0) trivial rfl
  have h := h.next .callFlush trivial rfl
  exact ⟨_, h, rfl, rfl, rfl, by decide⟩

end Foxxll.WriterFail
