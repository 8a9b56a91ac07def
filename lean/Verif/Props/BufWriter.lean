/-
Properties C17 and C18: the buffered writer.
-/
import Verif.Proofs.BufWriter
import Verif.Proofs.BufWriterAux

namespace Foxxll.BufWriter

variable {α : Type}

/-! ### C17 -/

/-- **C17 is false**: `flush()` puts all buffers on the free list, also the one the client
holds.  A client that then passes this buffer to `write` gets it back although its content is
batched and not yet written. -/
theorem C17_false : ∃ s : St Nat, Reach (nBlocks 2) (batchSize 1) true Legal s ∧
    1 ∈ s.held ∧ 1 ∈ s.batch.map (·.2) := by
  have h : Reach (α := Nat) (nBlocks 2) (batchSize 1) true Legal _ :=
    Reach.next (.work none 0) (Reach.next (.work none 0) (Reach.next (.callWrite 1 ⟨0, 0⟩)
      (Reach.next (.work none 0) (Reach.next (.work none 0) (Reach.next .callFlush
        (Reach.next (.work none 0) (Reach.next .callGet (Reach.start (fun _ => 0) (fun _ => ⟨0, 0⟩))
          trivial rfl) trivial rfl) trivial rfl) trivial rfl) trivial rfl)
      (by show 1 ∈ [1]; simp) rfl) trivial rfl) trivial rfl
  exact ⟨_, h, by show 1 ∈ [1]; simp, by show 1 ∈ [1]; simp⟩

/-- … and the block is lost: the content that reaches the disk under the first identifier is the
one filled in for the second identifier. -/
theorem C17_wrong_data : ∃ s : St Nat, Reach (nBlocks 2) (batchSize 1) true Legal s ∧
    s.written = [(⟨0, 0⟩, 5), (⟨0, 4096⟩, 6)] ∧ s.transferred = [(⟨0, 0⟩, 6)] := by
  have h : Reach (α := Nat) (nBlocks 2) (batchSize 1) true Legal _ :=
    Reach.next (.done 1) (Reach.next (.work none 0) (Reach.next (.work none 0) (Reach.next (.callWrite 1 ⟨0, 4096⟩)
      (Reach.next (.fill 1 6)
      (Reach.next (.work none 0) (Reach.next (.work none 0) (Reach.next (.callWrite 1 ⟨0, 0⟩)
      (Reach.next (.work none 0) (Reach.next (.work none 0) (Reach.next .callFlush
        (Reach.next (.fill 1 5) (Reach.next (.work none 0) (Reach.next .callGet (Reach.start (fun _ => 0) (fun _ => ⟨0, 0⟩))
          trivial rfl) trivial rfl) (by show 1 ∈ [1]; simp) rfl) trivial rfl) trivial rfl) trivial rfl)
      (by show 1 ∈ [1]; simp) rfl) trivial rfl) trivial rfl)
      (by show 1 ∈ [1]; simp) rfl) (by show 1 ∈ [1]; simp) rfl) trivial rfl) trivial rfl) trivial rfl
  exact ⟨_, h, rfl, rfl⟩

/-- If the client gives up its buffers when it calls `flush`, then a buffer in its hands is
neither batched nor being written, and is handed out only once. -/
theorem C17_handed_out_partial (n wbs : Nat) (hw : 0 < wbs) (s : St α) (hr : Reach n wbs false Legal s) :
    s.held.Nodup ∧ ∀ x ∈ s.held, x < n ∧ x ∉ s.batch.map (·.2) ∧ x ∉ s.free ∧ ∀ bid, s.reqs x ≠ some (bid, false) := by
  have hi := reach_inv hw (fun _ _ h => h) hr
  have hnd := hi.nd
  unfold places at hnd
  have h4 := (List.nodup_append.1 hnd).2.2
  refine ⟨(List.nodup_append.1 hnd).1, ?_⟩
  intro x hx
  refine ⟨hi.lt x (by unfold places; simp [hx]), ?_, ?_, ?_⟩
  · intro hb
    exact h4 x hx x (by simp only [List.mem_append]; exact .inr (.inr (.inl hb))) rfl
  · intro hb
    exact h4 x hx x (by simp [hb]) rfl
  · intro bid hreq
    exact h4 x hx x (by simp [hi.pend x bid hreq]) rfl

/-- At any time, what reached the disk is a part of what was passed to `write` — the same
identifiers with the same contents, nothing twice. -/
theorem C17_nothing_extra_partial (n wbs : Nat) (hw : 0 < wbs) (s : St α) (hr : Reach n wbs false Legal s) :
    ∃ rest, s.written.Perm (s.transferred ++ rest) := ⟨_, (reach_inv hw (fun _ _ h => h) hr).log⟩

/-- When `flush` (or the destructor) returns, exactly the blocks passed to `write` have reached
the disk, each once, with its identifier and the content it had when it was passed. -/
theorem C17_flush_complete_partial (n wbs : Nat) (hw : 0 < wbs) (s s' : St α) (hr : Reach n wbs false Legal s)
    (hpc : s.pc = .draining) (p : Option Nat) (c : Nat) (hs : step n wbs false s (.work p c) = some s') :
    s'.pc = .idle ∧ s'.written.Perm s'.transferred := by
  have hi := reach_inv hw (fun _ _ h => h) hr
  have hi' := step_inv hw hi (op := .work p c) trivial hs
  simp only [step, work, hpc] at hs
  split at hs
  · simp only [Option.some.injEq] at hs
    have hl := hi'.log
    subst hs
    refine ⟨rfl, ?_⟩
    have hb := hi.dr hpc
    simpa [pending, batched, curW, hb] using hl
  · exact absurd hs (by simp)

/-- Blocks of a batch are submitted in ascending order of their offsets. -/
theorem C17_batch_order (s s' : St α) (c : Nat) (h : submitOne s c = some s') :
    ∃ e ∈ s.batch, s'.busy = s.busy ++ [e.2] ∧ ∀ e' ∈ s.batch, e.1 ≤ e'.1 := by
  unfold submitOne at h
  split at h
  · exact absurd h (by simp)
  · rename_i e rest hpop
    obtain ⟨hperm, hmin⟩ := popMin_spec hpop
    refine ⟨e, hperm.mem_iff.2 (by simp), ?_, hmin⟩
    split at h
    · exact absurd h (by simp)
    · simp only [Option.some.injEq] at h; subst h; rfl

/-! ### C18 -/

/-- **C18 is false**: the constructor accepts a batch size not smaller than the number of
buffers; after filling all buffers the batch is not full, nothing is being written, and
`get_free_block` waits forever. -/
theorem C18_false : ∃ s : St Nat, Reach (nBlocks 2) (batchSize 2) false Legal1 s ∧ s.pc = .getting ∧
    ∀ s', ¬ Internal (nBlocks 2) (batchSize 2) s s' := by
  have h : Reach (α := Nat) (nBlocks 2) (batchSize 2) false Legal1 _ :=
    Reach.next (.work none 0) (Reach.next (.callWrite 0 ⟨0, 4096⟩)
      (Reach.next (.work none 0) (Reach.next (.work none 0) (Reach.next (.callWrite 1 ⟨0, 0⟩)
        (Reach.next (.work none 0) (Reach.next .callGet (Reach.start (fun _ => 0) (fun _ => ⟨0, 0⟩))
          rfl rfl) trivial rfl) rfl rfl) trivial rfl) trivial rfl) rfl rfl) trivial rfl
  exact ⟨_, h, rfl, stuck rfl rfl rfl (fun _ => rfl)⟩

/-- If the batch size is smaller than the number of buffers and the client works with one buffer
at a time, then inside of a method the writer or the I/O threads can always proceed … -/
theorem C18_not_stuck_partial (n wbs : Nat) (hw : 0 < wbs) (hlt : wbs < n) (s : St α)
    (hr : Reach n wbs false Legal1 s) (hpc : s.pc ≠ .idle) : ∃ s', Internal n wbs s s' := by
  have hi := reach_inv hw legal1_legal hr
  have hheld := (one_held hr).1 hpc
  rcases not_stuck hi hpc (by rw [hheld]; simpa using hlt) false with ⟨p, c, s', h⟩ | ⟨b, s', h⟩
  · exact ⟨s', .work p c h⟩
  · exact ⟨s', .done b h⟩

/-- … and not forever: every method returns. -/
theorem C18_terminates_partial (n wbs : Nat) (hw : 0 < wbs) (run : Nat → St α)
    (h0 : Reach n wbs false Legal1 (run 0)) : ¬ ∀ i, Internal n wbs (run i) (run (i + 1)) := by
  intro h
  have hreach : ∀ i, Reach n wbs false Legal1 (run i) := by
    intro i
    induction i with
    | zero => exact h0
    | succ i ih =>
      cases h i with
      | work p c hs => exact Reach.next (.work p c) ih trivial hs
      | done b hs => exact Reach.next (.done b) ih trivial hs
  have hdec : ∀ i, msr (run (i + 1)) < msr (run i) := by
    intro i
    have hi' := reach_inv hw legal1_legal (hreach (i + 1))
    cases h i with
    | work p c hs => exact work_msr hs
    | done b hs => exact done_msr hi' hs
  have : ∀ i, msr (run i) + i ≤ msr (run 0) := by
    intro i
    induction i with
    | zero => omega
    | succ i ih => have := hdec i; omega
  have := this (msr (run 0) + 1)
  omega

/-- `buf_ostream` (buf_ostream.hpp:50-55) creates its writer with half as many batch as buffers:
the hypotheses of the two theorems always hold. -/
theorem C18_ostream (nbuffers : Nat) : 0 < batchSize (nbuffers / 2) ∧ batchSize (nbuffers / 2) < nBlocks nbuffers := by
  unfold batchSize nBlocks
  split <;> split <;> omega

/-- A run in which a block is written and flushed. -/
example : ∃ s : St Nat, Reach (nBlocks 3) (batchSize 1) false Legal s ∧ s.pc = .draining ∧
    s.written = [(⟨0, 8⟩, 5)] ∧ s.transferred = [(⟨0, 8⟩, 5)] := by
  have h : Reach (α := Nat) (nBlocks 3) (batchSize 1) false Legal _ :=
    Reach.next (.work none 0) (Reach.next (.done 2) (Reach.next (.work none 0) (Reach.next .callFlush
      (Reach.next (.work none 0) (Reach.next (.work none 0) (Reach.next (.callWrite 2 ⟨0, 8⟩)
        (Reach.next (.fill 2 5)
          (Reach.next (.work none 0) (Reach.next .callGet (Reach.start (fun _ => 0) (fun _ => ⟨0, 0⟩)) trivial rfl)
            trivial rfl) (by show 2 ∈ [2]; simp) rfl) (by show 2 ∈ [2]; simp) rfl) trivial rfl) trivial rfl)
      trivial rfl) trivial rfl) trivial rfl) trivial rfl
  exact ⟨_, h, rfl, rfl, rfl⟩

end Foxxll.BufWriter
