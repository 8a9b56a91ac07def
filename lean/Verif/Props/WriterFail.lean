/-
Property C143: writers and output streams report failed writes.
-/
import Verif.Spec.WriterFail
import Verif.Proofs.WriterFailOut
import Verif.Proofs.BufWriterAux
import Verif.Props.Streams

namespace Foxxll.WriterFail

open BufWriter (Bid nBlocks batchSize isDone)
open _root_.Foxxll.Stream (chunk putCalls diskAfter)

variable {α : Type}

/-- The property fails: one write failed, and the destructor terminates the program. -/
theorem C143_false : ∃ s : St Nat, Reach (nBlocks 2) (batchSize 1) Legal s ∧ s.thrown = 0 ∧ s.failed.length = 1 ∧ s.w.pc = .draining ∧ s.closing = true ∧
    ∀ c, step (nBlocks 2) (batchSize 1) s (.work c) = .terminated := by
  have h := Reach.start (n := nBlocks 2) (wbs := batchSize 1) (legal := Legal) (fun _ => 0) (fun _ => ⟨0, 0⟩)
  have h := h.next .callGet trivial rfl
  have h := h.next (.work 0) trivial rfl
  have h := h.next (.callWrite 1 ⟨0, 0⟩) (by show 1 ∈ [1]; simp) rfl
  have h := h.next (.work 0) trivial rfl
  have h := h.next (.work 0) trivial rfl
  have h := h.next .callClose trivial rfl
  have h := h.next (.work 0) trivial rfl
  have h := h.next (.work 0) trivial rfl
  have h := h.next (.fail 1) trivial rfl
  exact ⟨_, h, rfl, rfl, rfl, rfl, fun c => rfl⟩

/-- The property fails: after an exception of `get_free_block`, the completion of another write uses a switch that does not exist any more. -/
theorem C143_ub_false : ∃ s : St Nat, Reach (nBlocks 3) (batchSize 1) Legal s ∧ s.thrown = 1 ∧ step (nBlocks 3) (batchSize 1) s (.done 2) = .ub := by
  have h := Reach.start (n := nBlocks 3) (wbs := batchSize 1) (legal := Legal) (fun _ => 0) (fun _ => ⟨0, 0⟩)
  have h := h.next .callGet trivial rfl
  have h := h.next (.work 0) trivial rfl
  have h := h.next (.callWrite 2 ⟨0, 0⟩) (by show 2 ∈ [2]; simp) rfl
  have h := h.next (.work 0) trivial rfl
  have h := h.next (.work 0) trivial rfl
  have h := h.next (.callWrite 1 ⟨0, 4096⟩) (by show 1 ∈ [1]; simp) rfl
  have h := h.next (.work 0) trivial rfl
  have h := h.next (.work 0) trivial rfl
  have h := h.next (.work 0) trivial rfl
  have h := h.next (.work 0) trivial rfl
  have h := h.next (.work 0) trivial rfl
  have h := h.next (.callWrite 0 ⟨0, 8192⟩) (by show 0 ∈ [0]; simp) rfl
  have h := h.next (.work 0) trivial rfl
  have h := h.next (.work 0) trivial rfl
  have h := h.next (.work 0) trivial rfl
  have h := h.next (.work 0) trivial rfl
  have h := h.next (.work 0) trivial rfl
  have h := h.next (.fail 1) trivial rfl
  have h := h.threw (.work 0) trivial rfl
  exact ⟨_, h, rfl, rfl⟩

/-- The property fails for the output stream: the client writes 10, 11 and 12 to three blocks, gets an exception because the first write failed,
and then 12 is in the second block. -/
theorem C143_stream_false : ∃ s : OSt Nat, OReach ⟨1, [⟨0, 0⟩, ⟨0, 8⟩, ⟨0, 16⟩], 2⟩ s ∧ s.f.thrown = 1 ∧ s.out = [10, 11, 12] ∧
    s.f.failed = [(⟨0, 0⟩, [10])] ∧ s.f.stored = [(⟨0, 8⟩, [12])] := by
  have h := OReach.start (c := ⟨1, [⟨0, 0⟩, ⟨0, 8⟩, ⟨0, 16⟩], 2⟩) (fun _ => [0]) (fun _ => ⟨0, 0⟩) 0 (fun _ => rfl)
  have h := h.next (.work 0) rfl
  have h := h.next (.call (.assign 10)) rfl
  have h := h.next (.call .advance) rfl
  have h := h.next (.work 0) rfl
  have h := h.next (.work 0) rfl
  have h := h.next (.call (.assign 11)) rfl
  have h := h.next (.call .advance) rfl
  have h := h.next (.work 0) rfl
  have h := h.next (.work 0) rfl
  have h := h.next (.work 0) rfl
  have h := h.next (.fail 1) rfl
  have h := h.threw (.work 0) rfl
  have h := h.next (.call (.assign 12)) rfl
  have h := h.next (.call .advance) rfl
  have h := h.next (.work 0) rfl
  have h := h.next (.work 0) rfl
  have h := h.next (.done 0) rfl
  exact ⟨_, h, rfl, rfl, rfl, rfl⟩

/-- What holds for clients that keep the protocol, also after exceptions: what is stored, what failed, and what is still under way are together the blocks
passed to `write`, each once and with the content it had; buffers handed out are distinct, nobody writes from them, and their last write did not fail; exceptions
come from `get_free_block` (also as the end of `write`) or from the end of `flush`, and only if a write failed. -/
theorem C143_partial {n wbs : Nat} (hw : 0 < wbs) {s : St α} (h : Reach n wbs Legal s) :
    (∃ rest, s.w.written.Perm (s.stored ++ s.failed ++ rest)) ∧
    s.w.held.Nodup ∧ (∀ x ∈ s.w.held, x < n ∧ x ∉ s.w.batch.map (·.2) ∧ x ∉ s.w.free ∧ s.err x = false ∧ ∀ bid, s.w.reqs x ≠ some (bid, false)) ∧
    (0 < s.thrown → s.failed ≠ []) ∧
    ∀ op s', step n wbs s op = .threw s' → (∃ c, op = .work c) ∧ (s.w.pc = .getting ∨ s.w.pc = .draining) ∧ s.failed ≠ [] := by
  have hi := reach_inv hw h
  have hnd := hi.base.nd
  unfold BufWriter.places at hnd
  have h4 := (List.nodup_append.1 hnd).2.2
  refine ⟨⟨_, hi.base.log.trans (hi.log.append_right _)⟩, (List.nodup_append.1 hnd).1, ?_, hi.exc, ?_⟩
  · intro x hx
    refine ⟨hi.base.lt x (by unfold BufWriter.places; simp [hx]), fun hm => h4 x hx x (by simp at hm ⊢; exact Or.inr (Or.inr (Or.inl hm))) rfl,
      fun hm => h4 x hx x (by simp [hm]) rfl, ?_, fun bid hr => h4 x hx x (by simp [hi.base.pend x bid hr]) rfl⟩
    cases he : s.err x with
    | false => rfl
    | true => exact absurd hx (bad_else hi he).1
  · intro op s' hs
    obtain ⟨c, rfl, hs⟩ := step_threw hs
    refine ⟨⟨c, rfl⟩, ?_, ?_⟩
    · rcases work_threw hi hs with ⟨h1, _⟩ | ⟨h1, _⟩
      · exact Or.inl h1
      · exact Or.inr h1
    · obtain ⟨⟨x, hx⟩, _⟩ := work_threw_any hs
      intro hf
      have := hi.fails.1 hf x
      rw [hx] at this
      cases this

example : ∃ s : St Nat, Reach (nBlocks 2) (batchSize 1) Legal s ∧ s.failed ≠ [] ∧ s.w.held = [0] := by
  have h := Reach.start (n := nBlocks 2) (wbs := batchSize 1) (legal := Legal) (fun _ => 0) (fun _ => ⟨0, 0⟩)
  have h := h.next .callGet trivial rfl
  have h := h.next (.work 0) trivial rfl
  have h := h.next (.callWrite 1 ⟨0, 0⟩) (by show 1 ∈ [1]; simp) rfl
  have h := h.next (.work 0) trivial rfl
  have h := h.next (.work 0) trivial rfl
  have h := h.next .callFlush trivial rfl
  have h := h.next (.work 0) trivial rfl
  have h := h.next (.fail 1) trivial rfl
  have h := h.next (.work 0) trivial rfl
  have h := h.threw (.work 0) trivial rfl
  exact ⟨_, h, List.cons_ne_nil _ _, rfl⟩

/-- If `flush` (or the destructor) returns, nothing has failed, the client has got no exception, and exactly the blocks passed to `write` are stored. -/
theorem C143_flush {n wbs : Nat} (hw : 0 < wbs) {s s' : St α} (h : Reach n wbs Legal s) (hpc : s.w.pc = .draining) (c : Nat)
    (hs : step n wbs s (.work c) = .ok s') : s'.failed = [] ∧ s'.thrown = 0 ∧ s'.w.pc = .idle ∧ s'.w.written.Perm s'.stored := by
  have hi := reach_inv hw h
  have hs' : drain n wbs s c = .ok s' := by simpa [step, work, hpc] using hs
  obtain ⟨h1, w', h2, h3⟩ := drain_ok hi.bad hs'
  have hi' := step_ok_inv hw hi (op := .work c) trivial hs
  have hf : s'.failed = [] := by rw [h3]; exact hi.fails.2 h1
  have ht : s'.thrown = 0 := Nat.eq_zero_of_not_pos (fun hp => hi'.exc hp hf)
  have ht0 : s.thrown = 0 := by rw [h3] at ht; exact ht
  have h4 := BufWriter.C17_flush_complete_partial n wbs hw s.w w' (hi.reach ht0) hpc none c h2
  refine ⟨hf, ht, by rw [h3]; exact h4.1, ?_⟩
  have hl := hi'.log
  rw [hf, List.append_nil] at hl
  have h5 : s'.w.written.Perm s'.w.transferred := by rw [h3]; exact h4.2
  exact h5.trans hl

/-- So once a write has failed, `flush` never returns normally again, whatever the client does, and the destructor terminates the program as soon as the writes
have come to their ends. -/
theorem C143_forever {n wbs : Nat} {legal : St α → Op α → Prop} {s : St α} (h : Reach n wbs legal s) (hf : s.failed ≠ []) :
    (s.w.pc = .draining → ∀ c s', step n wbs s (.work c) ≠ .ok s') ∧
    (s.w.pc = .draining → s.closing = true → (∀ x ∈ s.w.busy, isDone s.w x = true) → ∀ c, step n wbs s (.work c) = .terminated) ∧
    (∀ op s', step n wbs s op = .ok s' ∨ step n wbs s op = .threw s' → s'.failed ≠ []) := by
  have hi := reach_rinv h
  refine ⟨fun hpc c s' hs => ?_, fun hpc hc hd c => ?_, fun op s' hs => ?_⟩
  · have hs' : drain n wbs s c = .ok s' := by simpa [step, work, hpc] using hs
    exact hf (hi.fails.2 (drain_ok hi.bad hs').1)
  · show work n wbs s c = .terminated
    simp only [work, hpc]
    unfold drain
    split
    · rename_i hdw
      exact absurd (hi.fails.2 (fun b => by
        cases he : s.err b with
        | false => rfl
        | true =>
          have := dropWhile_all hdw b (hi.bad b he).1
          simp [he] at this)) hf
    · rename_i x r hdw
      rw [if_pos (hd x (dropWhile_head hdw).1)]
      simp [raise, hc]
  · rcases hs with hs | hs
    · rcases step_change hs with ⟨_, _, h1, _⟩ | ⟨_, _, _, _, _, _, _, _, ⟨_, h1⟩ | ⟨_, h1⟩⟩
      · rw [h1]; exact hf
      · rw [h1]; exact hf
      · rw [h1]; simp
    · obtain ⟨c, _, hs⟩ := step_threw hs
      obtain ⟨_, _, _, _, h1, _⟩ := work_threw_any hs
      rw [h1]
      exact hf

/-- The exception comes soon: after a write has failed, `get_free_block` returns at most as many more buffers as are busy before it throws, whatever the client does. -/
theorem C143_soon {n wbs : Nat} {legal : St α → Op α → Prop} {s s' : St α} (h : Reach n wbs legal s) (hf : s.failed ≠ []) (hq : Quiet n wbs s s') :
    s'.gets ≤ s.gets + s.w.busy.length := by
  have hi := reach_rinv h
  obtain ⟨b, hb⟩ : ∃ b, s.err b = true := Classical.byContradiction fun hn => hf (hi.fails.2 fun b => by
    cases he : s.err b with
    | false => rfl
    | true => exact absurd ⟨b, he⟩ hn)
  obtain ⟨_, _, h3⟩ := quiet_budget hi hb hq
  have hlt : s.w.busy.idxOf b < s.w.busy.length := List.idxOf_lt_length_iff.2 (hi.bad b hb).1
  unfold budget at h3
  split at h3 <;> split at h3 <;> omega

/-- For example one more buffer, if the block in front of the failed one is stored. -/
example : ∃ s s' : St Nat, Reach (nBlocks 3) (batchSize 1) Legal s ∧ s.failed ≠ [] ∧ s.w.busy.length = 2 ∧ Quiet (nBlocks 3) (batchSize 1) s s' ∧ s'.gets = s.gets + 1 := by
  have h := Reach.start (n := nBlocks 3) (wbs := batchSize 1) (legal := Legal) (fun _ => 0) (fun _ => ⟨0, 0⟩)
  have h := h.next .callGet trivial rfl
  have h := h.next (.work 0) trivial rfl
  have h := h.next (.callWrite 2 ⟨0, 0⟩) (by show 2 ∈ [2]; simp) rfl
  have h := h.next (.work 0) trivial rfl
  have h := h.next (.work 0) trivial rfl
  have h := h.next (.callWrite 1 ⟨0, 4096⟩) (by show 1 ∈ [1]; simp) rfl
  have h := h.next (.work 0) trivial rfl
  have h := h.next (.work 0) trivial rfl
  have h := h.next (.work 0) trivial rfl
  have h := h.next (.work 0) trivial rfl
  have h := h.next (.work 0) trivial rfl
  have h := h.next (.callWrite 0 ⟨0, 8192⟩) (by show 0 ∈ [0]; simp) rfl
  have h := h.next (.work 0) trivial rfl
  have h := h.next (.work 0) trivial rfl
  have h := h.next (.work 0) trivial rfl
  have h := h.next (.done 2) trivial rfl
  have h := h.next (.fail 1) trivial rfl
  exact ⟨_, _, h, List.cons_ne_nil _ _, rfl, Quiet.next (.work 0) .refl rfl, rfl⟩

/-- Up to the first exception all is as without failures, where failed writes count as completed: so the buffers, identifiers and the order of the writes are those
of C17 and C18, and no switch of `wait_any` is left behind. -/
theorem C143_before {n wbs : Nat} (hw : 0 < wbs) {s : St α} (h : Reach n wbs Legal s) (h0 : s.thrown = 0) :
    BufWriter.Reach n wbs false BufWriter.Legal s.w ∧ s.w.transferred.Perm (s.stored ++ s.failed) ∧ ∀ op, step n wbs s op ≠ .ub := by
  have hi := reach_inv hw h
  refine ⟨hi.reach h0, hi.log, fun op hu => ?_⟩
  have hst := hi.stl h0
  have hlift : ∀ {s : St α} {o : Option (BufWriter.St α)}, lift s o ≠ .ub := by intro s o; cases o <;> simp [lift]
  have hret : ∀ {s : St α} {o : Option (BufWriter.St α)}, ret s o ≠ .ub := by intro s o; cases o <;> simp [ret]
  have hcall : ∀ {s : St α} {o : Option (BufWriter.St α)}, call s o ≠ .ub := by
    intro s o; unfold call; split; simp; exact hlift
  have hraise : ∀ {s : St α} {l}, raise s l ≠ .ub := by intro s l; unfold raise; split <;> simp
  have hfound : ∀ {k l}, found n wbs s k l ≠ .ub := by
    intro k l; unfold found
    split
    · simp
    · split
      · split
        · exact hraise
        · exact hret
      · simp
  have hsub : ∀ {c}, submit n wbs s c ≠ .ub := by
    intro c; unfold submit
    split
    · simp
    · split
      · exact hraise
      · exact hlift
  cases op with
  | fill b v => exact hcall hu
  | callGet => exact hcall hu
  | callWrite b bid => exact hcall hu
  | callFlush => exact hcall hu
  | callClose =>
    simp only [step] at hu
    split at hu
    · cases hu
    · exact hlift hu
  | work c =>
    have hu : work n wbs s c = .ub := hu
    unfold work at hu
    split at hu
    · cases hu
    · exact hlift hu
    · split at hu
      · exact hlift hu
      · exact hsub hu
    · unfold get at hu
      split at hu
      · split at hu
        · split at hu
          · exact hraise hu
          · exact hret hu
        · cases hu
      · split at hu
        · exact hret hu
        · split at hu
          · split at hu
            · exact hfound hu
            · cases hu
          · exact hfound hu
    · split at hu
      · exact hlift hu
      · exact hsub hu
    · unfold drain at hu
      split at hu
      · exact hlift hu
      · split at hu
        · exact hraise hu
        · cases hu
  | done b =>
    simp only [step] at hu
    split at hu
    · rw [hst] at hu
      simp at hu
      exact hlift hu
    · cases hu
  | fail b =>
    simp only [step] at hu
    split at hu
    · rw [hst] at hu
      simp at hu
      exact hlift hu
    · cases hu

/-- The output stream: if its destructor returns, then no write failed, the client got no exception, and the disk has the elements that the client wrote. -/
theorem C143_stream_partial (c : Stream.OCfg) (hs : 0 < c.size) (hn : c.bids.Nodup) (s : OSt α) (hr : OReach c s) (xs : List α)
    (hcalls : s.calls = putCalls xs ++ [.close]) (hcl : s.closed = true) (hpc : s.f.w.pc = .idle) (d : Bid → List α) :
    s.f.failed = [] ∧ s.f.thrown = 0 ∧ ∃ k, k ≤ c.bids.length ∧ xs.length = k * c.size ∧
      ∀ i b, i < k → c.bids[i]? = some b → diskAfter d s.f.stored b = chunk c.size xs i := by
  have hi := oreach_oi hs hr
  have hf : s.f.failed = [] := by
    rcases hi.cl hcl with h | h | ⟨_, h, _⟩
    · rw [hpc] at h; cases h
    · rw [hpc] at h; cases h
    · exact h
  have h0 : s.f.thrown = 0 := Nat.eq_zero_of_not_pos fun hp => hi.r.exc hp hf
  refine ⟨hf, h0, ?_⟩
  rw [hi.st hf]
  exact Stream.C16_output c hs hn s.base (hi.zero h0).1 xs hcalls hcl hpc d

example : ∃ s : OSt Nat, OReach ⟨1, [⟨0, 0⟩], 2⟩ s ∧ s.calls = putCalls [10] ++ [.close] ∧ s.closed = true ∧ s.f.w.pc = .idle ∧ s.f.stored = [(⟨0, 0⟩, [10])] := by
  have h := OReach.start (c := ⟨1, [⟨0, 0⟩], 2⟩) (fun _ => [0]) (fun _ => ⟨0, 0⟩) 0 (fun _ => rfl)
  have h := h.next (.work 0) rfl
  have h := h.next (.call (.assign 10)) rfl
  have h := h.next (.call .advance) rfl
  have h := h.next (.work 0) rfl
  have h := h.next (.work 0) rfl
  have h := h.next (.call .close) rfl
  have h := h.next (.work 0) rfl
  have h := h.next (.work 0) rfl
  have h := h.next (.done 1) rfl
  have h := h.next (.work 0) rfl
  exact ⟨_, h, rfl, rfl, rfl, rfl⟩

/-- And up to the first exception the stream works as without failures. -/
theorem C143_stream_before (c : Stream.OCfg) (hs : 0 < c.size) (s : OSt α) (hr : OReach c s) (h0 : s.f.thrown = 0) :
    Stream.OReach c s.base ∧ Reach c.n c.wbs Legal s.f := (oreach_oi hs hr).zero h0

end Foxxll.WriterFail
