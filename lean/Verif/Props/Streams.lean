/-
Property C16: what is written to a buffered output stream is read back by the buffered input
streams.
-/
import Verif.Proofs.Streams
import Verif.Props.AsyncSchedule
import Verif.Proofs.StreamsAux
set_option linter.unusedSimpArgs false

namespace Foxxll.Stream

variable {α : Type}

/-! ### The output stream -/

/-- A client writes `xs` with `<<` and destroys the stream: when the destructor returns, `xs` has
filled whole blocks, and the disk holds block number `i` of `xs` under identifier number `i`,
in whatever order the writes completed. -/
theorem C16_output (c : OCfg) (hs : 0 < c.size) (hn : c.bids.Nodup) (s : OSt α) (hr : OReach c s) (xs : List α)
    (hcalls : s.calls = putCalls xs ++ [.close]) (hcl : s.closed = true) (hpc : s.w.pc = .idle)
    (d : BufWriter.Bid → List α) :
    ∃ k, k ≤ c.bids.length ∧ xs.length = k * c.size ∧
      ∀ i b, i < k → c.bids[i]? = some b → diskAfter d s.w.transferred b = chunk c.size xs i := by
  have hi := oreach_inv hs hr
  have hsync := (oreach_sync hs hr).clo xs hcalls
  obtain ⟨he, _, _⟩ := hi.cl hcl
  obtain ⟨hb, hba⟩ := hi.fin hcl hpc
  have hlog := (BufWriter.reach_inv (wbs_pos c) BufWriter.legal1_legal hi.reach).log
  have hperm : s.w.written.Perm s.w.transferred := by
    simpa [BufWriter.pending, BufWriter.batched, BufWriter.curW, hb, hba, hpc] using hlog
  have hout := hi.out
  rw [hsync, he, List.take_zero, List.append_nil] at hout
  obtain ⟨h1, h2⟩ := chunk_flatten (s.w.written.map (·.2)) (by
    intro b hb
    obtain ⟨w, hw, rfl⟩ := List.mem_map.1 hb
    exact hi.wl w hw) hout.symm
  have hlen : s.w.written.length = s.nbid := by
    have := congrArg List.length hi.bids
    simpa [Nat.min_eq_left hi.nb] using this
  rw [List.length_map, hlen] at h1
  refine ⟨s.nbid, hi.nb, h1, ?_⟩
  intro i b hik hb
  have hlt : i < s.w.written.length := by omega
  obtain ⟨w, hw⟩ : ∃ w, s.w.written[i]? = some w := ⟨_, List.getElem?_eq_getElem hlt⟩
  have hw1 : w.1 = b := by
    have := congrArg (fun l => l[i]?) hi.bids
    simp only [List.getElem?_map, hw, Option.map_some, List.getElem?_take, hik, if_true, hb, Option.some.injEq] at this
    exact this
  have hw2 := h2 i w.2 (by rw [List.getElem?_map, hw]; rfl)
  rw [← hw2]
  apply diskAfter_mem
  · have : (s.w.written.map (·.1)).Nodup := by rw [hi.bids]; exact hn.sublist (List.take_sublist _ _)
    exact (hperm.map _).nodup_iff.1 this
  · rw [← hw1]; exact hperm.mem_iff.1 (List.mem_of_getElem? hw)

/-! ### The input streams -/

/-- Without spurious wake-ups the elements read so far are a prefix of the expected ones; at the
end of the stream they are all of them; no step is undefined, and an assert fails only if the
client reads beyond the end. -/
theorem C16_input_partial (rev : Bool) (size : Nat) (hs : 0 < size) (c : Prefetch.Cfg (List α))
    (ho : Prefetch.OrderOk c) (hd : ∀ k, k < c.seqLength → (c.disk k).length = size)
    (s : ISt α) (hr : IReach rev size c false s) :
    s.got <+: expected rev c ∧ (s.notFinished = false → s.pc = .idle → s.got = expected rev c) ∧
    ∀ op, op ≠ .spurious → iStep rev size c s op ≠ .ub ∧
      (iStep rev size c s op = .assertFail → op = .advance ∧ s.got = expected rev c) := by
  have hi := ireach_inv hs ho hd hr
  have hpi := Prefetch.reach_inv ho.good hi.reach
  have hret : s.p.returned.length ≤ c.seqLength := by
    have := hpi.nc
    rcases hpi.wait with h | h <;> omega
  refine ⟨?_, ?_, ?_⟩
  · cases hi.shape with
    | idle k a1 a2 a3 a4 a5 a6 =>
      rw [a6]
      refine List.IsPrefix.trans ?_ (upTo_prefix rev c (k := k + 1) (by omega))
      rw [upTo_succ, List.prefix_append_right_inj]
      exact List.take_prefix _ _
    | consuming k a1 a3 a4 a5 a6 a7 => rw [a7]; exact upTo_prefix rev c (by omega)
    | waiting a1 a3 a4 a6 a7 => rw [a7]; exact upTo_prefix rev c hret
    | finished a1 a2 a3 a4 a6 => rw [a6]; exact List.prefix_refl _
  · intro hnf hpc
    cases hi.shape with
    | idle k a1 a2 => rw [hnf] at a2; exact absurd a2 (by simp)
    | consuming k a1 => rw [hpc] at a1; exact absurd a1 (by simp)
    | waiting a1 => rw [hpc] at a1; exact absurd a1 (by simp)
    | finished a1 a2 a3 a4 a6 => exact a6
  · intro op hsp
    have lifted : ∀ (pop : Prefetch.Op) (f : Prefetch.St (List α) → ISt α), Prefetch.Legal c s.p pop → pop ≠ .spurious →
        lift f (Prefetch.step c s.p pop) ≠ .ub ∧ lift f (Prefetch.step c s.p pop) ≠ .assertFail := by
      intro pop f hl hp
      obtain ⟨h1, h2⟩ := (Prefetch.C15_safe_partial c ho).2 s.p hi.reach pop hl hp
      cases hq : Prefetch.step c s.p pop with
      | ub => exact absurd hq h1
      | assertFail => exact absurd hq h2
      | blocked => simp [lift]
      | ok p => simp [lift]
    cases op with
    | advance =>
      simp only [iStep]
      cases hi.shape with
      | idle k a1 a2 a3 a4 a5 a6 =>
        obtain ⟨x, hx, hb⟩ := advance_ok ho hd hi a1 a2 a4 a5
        simp only [a1, a2, if_true, hb, hx]
        split <;> simp
      | consuming k a1 => simp [a1]
      | waiting a1 => simp [a1]
      | finished a1 a2 a3 a4 a6 =>
        simp only [a1, a2, if_true, Bool.false_eq_true, if_false]
        exact ⟨by simp, fun _ => ⟨trivial, a6⟩⟩
    | consume =>
      simp only [iStep]
      split
      · rename_i hpc
        cases hi.shape with
        | idle k a1 => rw [hpc] at a1; exact absurd a1 (by simp)
        | waiting a1 => rw [hpc] at a1; exact absurd a1 (by simp)
        | finished a1 => rw [hpc] at a1; exact absurd a1 (by simp)
        | consuming k a1 a3 a4 =>
          exact ⟨(lifted (.consumed s.blk) _ ⟨k, by rw [a4]; simp⟩ (by simp)).1,
            fun h => absurd h (lifted (.consumed s.blk) _ ⟨k, by rw [a4]; simp⟩ (by simp)).2⟩
      · simp
    | wake =>
      simp only [iStep]
      split
      · exact ⟨(lifted .wake _ trivial (by simp)).1, fun h => absurd h (lifted .wake _ trivial (by simp)).2⟩
      · simp
    | spurious => exact absurd rfl hsp
    | copy b =>
      exact ⟨(lifted (.copy b) _ trivial (by simp)).1, fun h => absurd h (lifted (.copy b) _ trivial (by simp)).2⟩
    | signal b =>
      exact ⟨(lifted (.signal b) _ trivial (by simp)).1, fun h => absurd h (lifted (.signal b) _ trivial (by simp)).2⟩
    | finish b =>
      exact ⟨(lifted (.finish b) _ trivial (by simp)).1, fun h => absurd h (lifted (.finish b) _ trivial (by simp)).2⟩

/-- **C16 is false** if condition variables may wake up spuriously: the input stream then reads a
buffer that was never filled. -/
theorem C16_false : ∃ (c : Prefetch.Cfg (List Nat)) (s : ISt Nat), Prefetch.OrderOk c ∧
    (∀ k, k < c.seqLength → (c.disk k).length = 1) ∧ IReach false 1 c true s ∧ iStep false 1 c s .advance = .ub := by
  let c : Prefetch.Cfg (List Nat) := { seqLength := 1, seq := [0], bufSize := 1, disk := fun _ => [7] }
  have h : IReach false 1 c true _ := IReach.next .spurious (IReach.start 0 rfl) (by simp) rfl
  exact ⟨c, _, ⟨by decide, by decide, by decide⟩, by intro k _; rfl, h, rfl⟩

/-! ### Both together -/

/-- Number of prefetch buffers of an input stream: two for each disk or all but one of those
given, whichever is more; `nbuffers - 1` wraps for `nbuffers = 0`. -/
theorem C16_readBuffers (ndisks nbuffers : Nat) (h : nbuffers < 2 ^ 64) :
    readBuffers ndisks nbuffers = max (2 * ndisks) (((nbuffers : Int) - 1) % 2 ^ 64).toNat := by
  unfold readBuffers
  split <;> congr 1 <;> omega

example : readBuffers 3 0 = 2 ^ 64 - 1 := by rw [C16_readBuffers 3 0 (by decide)]; decide

/-- The round trip: `xs` is written to the blocks `bids` and the stream destroyed; then an input
stream over the same blocks (over the reversed list of blocks for the reverse stream), with the
prefetch order computed by `compute_prefetch_schedule`, delivers `xs` (its reverse). -/
theorem C16_roundtrip_partial (oc : OCfg) (hs : 0 < oc.size) (hn : oc.bids.Nodup)
    (os : OSt α) (hor : OReach oc os) (xs : List α) (hxs : xs ≠ [])
    (hcalls : os.calls = putCalls xs ++ [.close]) (hcl : os.closed = true) (hpc : os.w.pc = .idle)
    (hfull : xs.length = oc.bids.length * oc.size) (d : BufWriter.Bid → List α)
    (rev : Bool) (ndisks nbuffers D : Nat) (hnd : 0 < ndisks)
    (disks : List (Option Nat)) (hdl : disks.length = oc.bids.length) (hD : Sched.DisksOk disks D)
    (busy0 : Nat → Bool) (choice : Nat → Nat) (seq : List Nat)
    (hseq : Sched.computeSchedule disks (readBuffers ndisks nbuffers) D busy0 choice = some seq)
    (c : Prefetch.Cfg (List α))
    (hc1 : c.seqLength = oc.bids.length) (hc2 : c.seq = seq) (hc3 : c.bufSize = readBuffers ndisks nbuffers)
    (hc4 : ∀ j b, (order rev oc.bids)[j]? = some b → c.disk j = diskAfter d os.w.transferred b)
    (s : ISt α) (hr : IReach rev oc.size c false s) :
    s.got <+: order rev xs ∧ (s.notFinished = false → s.pc = .idle → s.got = order rev xs) := by
  obtain ⟨k, hk1, hk2, hk3⟩ := C16_output oc hs hn os hor xs hcalls hcl hpc d
  have hk : k = oc.bids.length := by
    have := hk2.symm.trans hfull
    exact Nat.eq_of_mul_eq_mul_right hs this
  subst hk
  have hpos : 0 < oc.bids.length := by
    rcases Nat.eq_zero_or_pos oc.bids.length with h | h
    · rw [h, Nat.zero_mul] at hk2; exact absurd (List.length_eq_zero_iff.1 hk2) hxs
    · exact h
  have hm : 0 < readBuffers ndisks nbuffers := by unfold readBuffers; omega
  obtain ⟨ho, _⟩ := Prefetch.C15_schedule_ok disks _ D hm (by omega) hD busy0 choice seq hseq c.disk
  have hcfg : c = { seqLength := disks.length, seq := seq, bufSize := readBuffers ndisks nbuffers, disk := c.disk } := by
    cases c; simp_all
  rw [← hcfg] at ho
  -- the blocks on disk
  have hdisk : ∀ j, j < c.seqLength → c.disk j = chunk oc.size xs (if rev then oc.bids.length - 1 - j else j) := by
    intro j hj
    rw [hc1] at hj
    cases rev with
    | false =>
      have hb : oc.bids[j]? = some oc.bids[j] := List.getElem?_eq_getElem hj
      rw [hc4 j _ hb]
      simpa using hk3 j _ hj hb
    | true =>
      have hb : oc.bids[oc.bids.length - 1 - j]? = some oc.bids[oc.bids.length - 1 - j] := List.getElem?_eq_getElem (by omega)
      rw [hc4 j _ (by simp only [order, if_true]; rw [List.getElem?_reverse hj]; exact hb)]
      simpa using hk3 _ _ (by omega) hb
  have hlen : ∀ i, i < oc.bids.length → (chunk oc.size xs i).length = oc.size := by
    intro i hi
    simp only [chunk, List.length_take, List.length_drop, hk2]
    have h1 : (i + 1) * oc.size ≤ oc.bids.length * oc.size := Nat.mul_le_mul_right _ hi
    rw [Nat.succ_mul] at h1
    omega
  have hd : ∀ j, j < c.seqLength → (c.disk j).length = oc.size := by
    intro j hj
    rw [hdisk j hj]
    apply hlen
    rw [hc1] at hj
    split <;> omega
  have hexp : expected rev c = order rev xs := by
    have hfl : (List.range oc.bids.length).flatMap (chunk oc.size xs) = xs := by
      rw [flatMap_chunks, ← hk2, List.take_length]
    cases rev with
    | false =>
      simp only [order, expected, Bool.false_eq_true, if_false]
      conv => rhs; rw [← hfl]
      rw [hc1]
      refine flatMap_congr' ?_
      intro j hj
      rw [hdisk j (by rw [hc1]; exact List.mem_range.1 hj)]
      simp
    | true =>
      simp only [order, expected, if_true]
      conv => rhs; rw [← hfl, ← range_rev_flatMap]
      rw [hc1]
      refine flatMap_congr' ?_
      intro j hj
      rw [hdisk j (by rw [hc1]; exact List.mem_range.1 hj)]
      simp
  obtain ⟨h1, h2, _⟩ := C16_input_partial rev oc.size hs c ho hd s hr
  rw [hexp] at h1 h2
  exact ⟨h1, h2⟩

/-! ### Progress -/

/-- The output stream never gets stuck inside of a method. -/
theorem C16_output_progress (c : OCfg) (hs : 0 < c.size) (s : OSt α) (hr : OReach c s) (hpc : s.w.pc ≠ .idle) :
    ∃ op s', (∀ k, op ≠ .call k) ∧ oStep c s op = .ok s' := by
  have hi := oreach_inv hs hr
  obtain ⟨w, hw⟩ := BufWriter.C18_not_stuck_partial c.n c.wbs (wbs_pos c) (BufWriter.C18_ostream c.nbuffers).2 s.w hi.reach hpc
  cases hw with
  | work p ch h =>
    refine ⟨.work p ch, ?_⟩
    simp only [oStep, h]
    split <;> exact ⟨_, by simp, rfl⟩
  | done b h =>
    refine ⟨.done b, ?_⟩
    simp only [oStep, h]
    exact ⟨_, by simp, rfl⟩

/-- An input stream with a computed schedule never gets stuck inside of a method. -/
theorem C16_input_progress_partial (rev : Bool) (size : Nat) (hs : 0 < size) (c : Prefetch.Cfg (List α))
    (ho : Prefetch.OrderOk c) (hwin : ∀ p k, c.seq[p]? = some k → p < k + c.bufSize)
    (hd : ∀ k, k < c.seqLength → (c.disk k).length = size)
    (s : ISt α) (hr : IReach rev size c false s) (hpc : s.pc ≠ .idle) :
    ∃ op s', op ≠ .advance ∧ op ≠ .spurious ∧ iStep rev size c s op = .ok s' := by
  have hi := ireach_inv hs ho hd hr
  have hpi := Prefetch.reach_inv ho.good hi.reach
  cases hi.shape with
  | idle k a1 => exact absurd a1 hpc
  | finished a1 => exact absurd a1 hpc
  | waiting a1 a3 a4 a6 a7 =>
    rcases Prefetch.C15_no_deadlock_partial c ho hwin s.p hi.reach _ a3 a4 with ⟨p, h⟩ | ⟨b, _, ⟨p, h⟩ | ⟨p, h⟩⟩
    · exact ⟨.wake, _, by simp, by simp, by simp only [iStep, a1, if_true, h, lift]; rfl⟩
    · exact ⟨.copy b, _, by simp, by simp, by simp only [iStep, h, lift]; rfl⟩
    · exact ⟨.signal b, _, by simp, by simp, by simp only [iStep, h, lift]; rfl⟩
  | consuming k a1 a3 a4 a5 a6 a7 =>
    obtain ⟨_, st, hst, hreq⟩ := hpi.held k s.blk (by rw [a4]; simp)
    cases st with
    | issued => simp [Prefetch.Stage.on] at hst
    | copied => simp [Prefetch.Stage.on] at hst
    | signalled => exact ⟨.finish s.blk, _, by simp, by simp, by simp only [iStep, Prefetch.step, hreq, lift]; rfl⟩
    | ready =>
      have hb := (hpi.req _ _ _ hreq).2.2.1
      obtain ⟨r, hrf, _⟩ := Prefetch.refill_spec ho.good hpi a3 (k := k) (b := s.blk) (by rw [a4]; simp)
      refine ⟨.consume, ?_⟩
      simp only [iStep, a1, if_true, Prefetch.step, a3, Option.isSome_none, Bool.false_eq_true, if_false,
        if_neg (Nat.not_le.2 hb), hreq, hrf]
      split <;> exact ⟨_, by simp, by simp, rfl⟩

/-- A run of the output stream: two blocks of one element each are written; the destructor has
returned.  -/
example : ∃ s : OSt Nat, OReach { size := 1, bids := [⟨0, 0⟩, ⟨0, 8⟩], nbuffers := 2 } s ∧
    s.calls = putCalls [5, 6] ++ [.close] ∧ s.closed = true ∧ s.w.pc = .idle ∧ s.w.transferred = [(⟨0, 0⟩, [5]), (⟨0, 8⟩, [6])] := by
  have h : OReach (α := Nat) { size := 1, bids := [⟨0, 0⟩, ⟨0, 8⟩], nbuffers := 2 } _ :=
    (OReach.start (fun _ => [0]) (fun _ => ⟨0, 0⟩) 7 (by intro b; rfl))
    |> fun h => OReach.next (.work none 0) h rfl
    |> fun h => OReach.next (.call (.assign 5)) h rfl
    |> fun h => OReach.next (.call .advance) h rfl
    |> fun h => OReach.next (.work none 0) h rfl
    |> fun h => OReach.next (.work none 0) h rfl
    |> fun h => OReach.next (.call (.assign 6)) h rfl
    |> fun h => OReach.next (.call .advance) h rfl
    |> fun h => OReach.next (.work none 0) h rfl
    |> fun h => OReach.next (.work none 0) h rfl
    |> fun h => OReach.next (.work none 0) h rfl
    |> fun h => OReach.next (.done 1) h rfl
    |> fun h => OReach.next (.work none 0) h rfl
    |> fun h => OReach.next (.call .close) h rfl
    |> fun h => OReach.next (.work none 0) h rfl
    |> fun h => OReach.next (.work none 0) h rfl
    |> fun h => OReach.next (.done 0) h rfl
    |> fun h => OReach.next (.work none 0) h rfl
  exact ⟨_, h, rfl, rfl, rfl, rfl⟩

end Foxxll.Stream
