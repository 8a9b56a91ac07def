import Verif.Proofs.StreamStore
/-
Property C115: the buffered streams end to end, from the elements given to an output stream through
writer, requests, queues, workers and files, and back through the prefetcher to the client of an input stream.
-/
set_option linter.unusedSimpArgs false

namespace Foxxll.E2E
open Foxxll Foxxll.Stream

variable {α : Type} {k : Queue.Kind} {qid : Nat → Nat} {cfgs : List (Nat × Bool)}

/-- **C115, output**: a client writes `xs` with `<<` and destroys the stream.  If no exception has been thrown when the destructor returns, `xs` has
filled whole blocks, and the file of the disk of identifier number `i` holds block number `i` of `xs` at its offset.  Any other clients, any
number of disks and queues, any interleaving, partial transfers. -/
theorem C115_output {L : Layout α} (hL : L.Ok) {c : OCfg} (hs : c.size = L.size) (hn : c.bids.Nodup) {base : Nat} {s : OSys α} {h : Store.Hist}
    (hr : ORun k qid cfgs L c base s h) {xs : List α} (hcalls : s.o.calls = putCalls xs ++ [.close]) (hcl : s.o.closed = true) (hpc : s.o.w.pc = .idle) :
    ∃ m, m ≤ c.bids.length ∧ xs.length = m * c.size ∧ ∀ i b, i < m → c.bids[i]? = some b →
      Last L s.d h qid b (chunk c.size xs i) ∧ L.dec (Files.pread (s.d.files b.file) b.offset L.raw) = chunk c.size xs i := by
  have I := orun_inv hL hs hn hr
  have hpos : 0 < c.size := by rw [hs]; exact hL.pos
  obtain ⟨hb, m, h1, h2, h3⟩ := closed_transferred hpos I.reach hcalls hcl hpc
  refine ⟨m, h1, h2, ?_⟩
  intro i b hi hbi
  obtain ⟨r, ⟨g1, g2, _, e, tl, g3, g4, g5⟩, g6, g7⟩ := I.tr b _ (h3 i b hi hbi)
  have hl : Store.last (s.d.qs (qid b.file)).cancelled (h.of (blockAt L.raw b)) = some e := by
    rw [g3]
    unfold Store.last
    rw [List.find?_cons_of_pos (by rw [g4]; simpa using g2)]
  have hf : e.r ∉ s.d.failed := by
    rcases g7 with g7 | ⟨b', g8, _⟩
    · rw [g4]; exact g7
    · rw [hb] at g8; cases g8
  have hnp : ¬ Store.Pending qid s.d e.r := by rw [g4]; exact g6
  refine ⟨⟨e, hl, hnp, hf, g5⟩, ?_⟩
  have := Store.C98_disk I.life (I.live b g1) rfl hl hnp hf
  rw [← g5, ← this]
  rfl

/-- **C115, input**: whatever an input stream over blocks whose last writes are finished delivers: all but the last `L.size` elements
delivered so far are right; if none of the reads that the stream has outstanding failed, all of them; at the end of the stream
all elements have been delivered.  No step of the stream is undefined.
Missing for C115: the elements of a block whose read failed are delivered before the error is reported (`C115_false`). -/
theorem C115_input_partial {rev : Bool} {L : Layout α} (hL : L.Ok) {c : ICfg} {base : Nat} {val : Nat → List α} {d0 : Store.St} {h0 : Store.Hist}
    (hord : c.seq.Perm (List.range c.bids.length)) (hpos : 0 < c.bids.length) (hbuf : 0 < c.bufSize)
    (hval : ∀ n bid, c.bids[n]? = some bid → (val n).length = L.size ∧ Last L d0 h0 qid bid (val n)) {s : ISys α} {h : Store.Hist}
    (hr : IRun k qid cfgs rev L c base d0 h0 s h) :
    s.i.got.take (s.i.got.length - L.size) <+: expected rev (c.on val) ∧
    ((∀ b r, s.rid b = some r → r ∉ s.d.failed) → s.i.got <+: expected rev (c.on val)) ∧
    (s.i.notFinished = false → s.i.pc = .idle → s.i.got = expected rev (c.on val)) ∧
    ∀ op, op ≠ .spurious → (∀ b, op ≠ .copy b) → iStep rev L.size (c.on (fun _ => [])) s.i op ≠ .ub := by
  have ok : IOk L c val := ⟨hL, hord, hpos, hbuf, fun n hn => (hval n _ (List.getElem?_eq_getElem hn)).1⟩
  obtain ⟨arr, I⟩ := irun_inv ok (fun n bid hb => (hval n bid hb).2) hr
  obtain ⟨m, rest, h1, h2, h3, h4⟩ := I.got ok
  refine ⟨?_, ?_, ?_, ?_⟩
  · have hp : upTo rev (c.on val) m <+: expected rev (c.on val) := upTo_prefix rev _ h1
    refine List.IsPrefix.trans ?_ hp
    rw [h2, List.length_append, List.take_append_of_le_length (by omega)]
    exact List.take_prefix _ _
  · intro hf
    have hv : ∀ n, view arr val n = val n := by
      intro n
      unfold view
      cases hv : arr n with
      | none => rfl
      | some v =>
        rcases I.good n v hv with h | ⟨b, st, r, _, g2, g3⟩
        · exact h
        · exact absurd g3 (hf b r g2)
    have hreach := I.reach val (fun n v hv' => by have := hv n; simp [view, hv'] at this; exact this.symm)
    exact (C16_input_partial rev L.size hL.pos _ (ok.order val) ok.len s.i hreach).1
  · intro g1 g2
    obtain ⟨rfl, rfl⟩ := h4 g1 g2
    rw [h2, List.append_nil]
    rfl
  · intro op hsp hc
    have hlen : ∀ n, n < (c.on (view arr val)).seqLength → ((c.on (view arr val)).disk n).length = L.size := by
      intro n hn
      show (view arr val n).length = _
      unfold view
      cases hv : arr n with
      | none => exact ok.len n hn
      | some v => exact I.alen n v hv
    rw [iStep_disk (fun _ => []) (view arr val) s.i hc]
    exact ((C16_input_partial rev L.size hL.pos _ (ok.order _) hlen s.i (I.reach _ view_agrees)).2.2 op hsp).1

/-- **C115, round trip**: `xs` is written to the blocks `bids` and the stream destroyed; then an input
stream over the same blocks (over the reversed list of blocks for the reverse stream), with the prefetch order computed by
`compute_prefetch_schedule`, delivers `xs` (its reverse), or throws an exception; all but the last `L.size` elements that it has delivered are right even then.
Missing for C115: `C115_false`. -/
theorem C115_partial {L : Layout α} (hL : L.Ok) {oc : OCfg} (hs : oc.size = L.size) (hn : oc.bids.Nodup) {obase : Nat} {os : OSys α} {h0 : Store.Hist}
    (hor : ORun k qid cfgs L oc obase os h0) {xs : List α} (hxs : xs ≠ [])
    (hcalls : os.o.calls = putCalls xs ++ [.close]) (hcl : os.o.closed = true) (hpc : os.o.w.pc = .idle) (hfull : xs.length = oc.bids.length * oc.size)
    (rev : Bool) {ndisks nbuffers D : Nat} (hnd : 0 < ndisks) {disks : List (Option Nat)} (hdl : disks.length = oc.bids.length) (hD : Sched.DisksOk disks D)
    {busy0 : Nat → Bool} {choice : Nat → Nat} {c : ICfg} (hc1 : c.bids = order rev oc.bids)
    (hc2 : Sched.computeSchedule disks (readBuffers ndisks nbuffers) D busy0 choice = some c.seq) (hc3 : c.bufSize = readBuffers ndisks nbuffers)
    {base : Nat} {s : ISys α} {h : Store.Hist} (hr : IRun k qid cfgs rev L c base os.d h0 s h) :
    s.i.got.take (s.i.got.length - L.size) <+: order rev xs ∧
    ((∀ b r, s.rid b = some r → r ∉ s.d.failed) → s.i.got <+: order rev xs) ∧
    (s.i.notFinished = false → s.i.pc = .idle → s.i.got = order rev xs) := by
  obtain ⟨m, hk1, hk2, hk3⟩ := C115_output hL hs hn hor hcalls hcl hpc
  have hsz : 0 < oc.size := by rw [hs]; exact hL.pos
  have hm : m = oc.bids.length := Nat.eq_of_mul_eq_mul_right hsz (hk2.symm.trans hfull)
  subst hm
  have hclen : c.bids.length = oc.bids.length := by rw [hc1]; unfold order; split <;> simp
  have hpos : 0 < oc.bids.length := by
    rcases Nat.eq_zero_or_pos oc.bids.length with h | h
    · rw [h, Nat.zero_mul] at hk2; exact absurd (List.length_eq_zero_iff.1 hk2) hxs
    · exact h
  have hmb : 0 < readBuffers ndisks nbuffers := by unfold readBuffers; omega
  let val : Nat → List α := fun j => chunk oc.size xs (if rev then oc.bids.length - 1 - j else j)
  obtain ⟨ho, _⟩ := Prefetch.C15_schedule_ok disks _ D hmb (by omega) hD busy0 choice c.seq hc2 val
  have hord : c.seq.Perm (List.range c.bids.length) := by rw [hclen, ← hdl]; exact ho.1
  have hlen : ∀ i, i < oc.bids.length → (chunk oc.size xs i).length = oc.size := by
    intro i hi
    simp only [chunk, List.length_take, List.length_drop, hk2]
    have h1 : (i + 1) * oc.size ≤ oc.bids.length * oc.size := Nat.mul_le_mul_right _ hi
    rw [Nat.succ_mul] at h1
    omega
  have hval : ∀ n bid, c.bids[n]? = some bid → (val n).length = L.size ∧ Last L os.d h0 qid bid (val n) := by
    intro n bid hb
    have hn' : n < oc.bids.length := by
      have := (List.getElem?_eq_some_iff.1 hb).1
      omega
    rw [hc1] at hb
    cases rev with
    | false =>
      refine ⟨by rw [← hs]; exact hlen _ hn', ?_⟩
      simpa [val] using (hk3 n bid hn' (by simpa [order] using hb)).1
    | true =>
      have hlt : oc.bids.length - 1 - n < oc.bids.length := by omega
      refine ⟨by rw [← hs]; exact hlen _ hlt, ?_⟩
      simp only [order, if_true] at hb
      rw [List.getElem?_reverse hn'] at hb
      simpa [val] using (hk3 _ bid hlt hb).1
  have hexp : expected rev (c.on val) = order rev xs := by
    have hfl : (List.range oc.bids.length).flatMap (chunk oc.size xs) = xs := by
      rw [flatMap_chunks, ← hk2, List.take_length]
    have hsl : (c.on val).seqLength = oc.bids.length := hclen
    cases rev with
    | false =>
      simp only [order, expected, Bool.false_eq_true, if_false]
      conv => rhs; rw [← hfl]
      rw [hsl]
      exact flatMap_congr' (fun j _ => by simp [ICfg.on, val])
    | true =>
      simp only [order, expected, if_true]
      conv => rhs; rw [← hfl, ← range_rev_flatMap]
      rw [hsl]
      exact flatMap_congr' (fun j _ => by simp [ICfg.on, val])
  obtain ⟨h1, h2, h3, _⟩ := C115_input_partial hL hord (by omega) (by omega) hval hr
  rw [hexp] at h1 h2 h3
  exact ⟨h1, h2, h3⟩

/-! ### Examples -/

/-- Two blocks of two elements and one byte of filler on a disk of 8 bytes. -/
def oc : OCfg := { size := 2, bids := [⟨0, 0⟩, ⟨0, 3⟩], nbuffers := 2 }

/-- Steps of the worker of queue 0; the system transfers one byte at a time. -/
def spin (n : Nat) (os : Nat → Files.Sys) : List Store.Op := .run 0 .signal os :: List.replicate n (.run 0 .work os)

def put (x : UInt8) : List (OEv UInt8) := [.call (.assign x), .call .advance]

/-- `os << 5 << 6 << 7 << 8`, and the destructor. -/
def evO : List (OEv UInt8) :=
  [.work none 0 0] ++ put 5 ++ put 6 ++ [.work none 0 0, .work none 0 0] ++ put 7 ++ put 8 ++ [.work none 0 0, .work none 0 0, .work none 0 9] ++
    (spin 10 Store.slow).map .env ++ [.done 1, .work none 0 9, .call .close, .work none 0 1, .work none 0 9] ++ (spin 10 Store.slow).map .env ++
    [.done 0, .work none 0 9]

/-- The forward stream over the blocks, two buffers. -/
def ic : ICfg := { bids := [⟨0, 0⟩, ⟨0, 3⟩], seq := [0, 1], bufSize := 2 }

def fetch (os : Nat → Files.Sys) (b : Nat) : List IEv := (spin 10 os).map .env ++ [.copy b, .signal b, .finish b]

/-- All elements are read. -/
def evI : List IEv :=
  [.issue 10, .issue 11] ++ fetch Store.slow 0 ++ fetch Store.slow 1 ++ [.wake, .advance, .advance, .consume, .wake, .advance, .advance, .consume]

/-- The system refuses to read. -/
def broken : Nat → Files.Sys := fun _ => { rc := none }

/-- The second read fails; its elements are consumed. -/
def evF : List IEv :=
  [.issue 10, .issue 11] ++ fetch Store.slow 0 ++ fetch broken 1 ++ [.wake, .advance, .advance, .consume, .wake, .advance, .advance]

/-- The reverse stream over the blocks: the last block first. -/
def icr : ICfg := { bids := [⟨0, 3⟩, ⟨0, 0⟩], seq := [0, 1], bufSize := 2 }

deriving instance DecidableEq for Call

/-- What the runs have in common. -/
def wrote (os : OSys UInt8) : Bool := os.o.calls == putCalls [5, 6, 7, 8] ++ [.close]

/-- **C115 is violated**: the completion handler switches the prefetcher's switch of the buffer also when the read has failed (request_with_state.cpp:78-90,
block_prefetcher.hpp:40-47), and `wait` (block_prefetcher.hpp:87-100) does not look at the request; its error is reported only when the block has been consumed (176-177).  Here the read of
the second block fails, and the client gets 5, 6, 5, 6 (the old content of the buffer) instead of 5, 6, 7, 8. -/
theorem C115_false : ¬ ∀ (oc : OCfg) (os : OSys UInt8) (h0 : Store.Hist) (xs : List UInt8) (c : ICfg) (s : ISys UInt8) (h : Store.Hist),
    oc.size = 2 → oc.bids.Nodup → ORun .twoQ id [(8, false)] (bytes 2 1) oc 0 os h0 → os.o.calls = putCalls xs ++ [.close] →
    os.o.closed = true → os.o.w.pc = .idle → c.bids = oc.bids → c.seq = List.range oc.bids.length → c.bufSize = 2 →
    IRun .twoQ id [(8, false)] false (bytes 2 1) c 0 os.d h0 s h → s.i.got <+: xs := by
  intro H
  obtain ⟨os, h, s, h', a1, a2, a3, a4, a5⟩ := demo (n := 2) (f := 1) (by decide) (cfgs := [(8, false)]) (fd := fun _ => 0)
    (out := [⟨.null, 0, 3, 3⟩, ⟨.null, 0, 3, 3⟩]) (oc := oc) rfl (by decide) (evO := evO) (rev := false) (ic := ic) (by decide) (by decide) (evI := evF)
    (p := fun os s => wrote os && s.i.got == [5, 6, 5, 6]) (by decide +kernel)
  simp only [wrote, Bool.and_eq_true, beq_iff_eq] at a5
  have := H oc os h [5, 6, 7, 8] ic s h' rfl (by decide) a1 a5.1 a2 a3 rfl (by decide) rfl a4
  rw [a5.2] at this
  exact absurd this (by decide)

/-- The hypotheses of the theorems: four elements are written, one byte at a time, and read back. -/
example : ∃ os h s h', ORun .twoQ id [(8, false)] (bytes 2 1) oc 0 os h ∧ os.o.closed = true ∧ os.o.w.pc = .idle ∧
    os.o.calls = putCalls [5, 6, 7, 8] ++ [.close] ∧ IRun .twoQ id [(8, false)] false (bytes 2 1) ic 0 os.d h s h' ∧
    s.i.got = [5, 6, 7, 8] ∧ s.i.notFinished = false ∧ s.i.pc = .idle := by
  obtain ⟨os, h, s, h', a1, a2, a3, a4, a5⟩ := demo (n := 2) (f := 1) (by decide) (cfgs := [(8, false)]) (fd := fun _ => 0)
    (out := [⟨.null, 0, 3, 3⟩, ⟨.null, 0, 3, 3⟩]) (oc := oc) rfl (by decide) (evO := evO) (rev := false) (ic := ic) (by decide) (by decide) (evI := evI)
    (p := fun os s => wrote os && (s.i.got == [5, 6, 7, 8] && (!s.i.notFinished && s.i.pc == .idle))) (by decide +kernel)
  simp only [wrote, Bool.and_eq_true, beq_iff_eq, Bool.not_eq_true'] at a5
  exact ⟨os, h, s, h', a1, a2, a3, a5.1, a4, a5.2.1, a5.2.2.1, a5.2.2.2⟩

/-- The reverse stream. -/
example : ∃ os h s h', ORun .twoQ id [(8, false)] (bytes 2 1) oc 0 os h ∧ os.o.closed = true ∧ os.o.w.pc = .idle ∧
    os.o.calls = putCalls [5, 6, 7, 8] ++ [.close] ∧ IRun .twoQ id [(8, false)] true (bytes 2 1) icr 0 os.d h s h' ∧
    s.i.got = [8, 7, 6, 5] ∧ s.i.notFinished = false ∧ s.i.pc = .idle := by
  obtain ⟨os, h, s, h', a1, a2, a3, a4, a5⟩ := demo (n := 2) (f := 1) (by decide) (cfgs := [(8, false)]) (fd := fun _ => 0)
    (out := [⟨.null, 0, 3, 3⟩, ⟨.null, 0, 3, 3⟩]) (oc := oc) rfl (by decide) (evO := evO) (rev := true) (ic := icr) (by decide) (by decide) (evI := evI)
    (p := fun os s => wrote os && (s.i.got == [8, 7, 6, 5] && (!s.i.notFinished && s.i.pc == .idle))) (by decide +kernel)
  simp only [wrote, Bool.and_eq_true, beq_iff_eq, Bool.not_eq_true'] at a5
  exact ⟨os, h, s, h', a1, a2, a3, a5.1, a4, a5.2.1, a5.2.2.1, a5.2.2.2⟩

/-- The prefetch order of the examples is one that `compute_prefetch_schedule` computes. -/
example : Sched.computeSchedule [some 0, some 0] (readBuffers 1 3) 1 (fun _ => false) (fun _ => 0) = some [0, 1] := by
  have h : Sched.simulate [some 0, some 0] 2 1 (fun _ => false) (fun _ => 0) = .done [(1, 1), (0, 2)] := by decide +kernel
  show Sched.computeSchedule [some 0, some 0] 2 1 (fun _ => false) (fun _ => 0) = _
  unfold Sched.computeSchedule
  rw [h]
  simp [Sched.writeOrder, List.range_succ, List.mergeSort, List.MergeSort.Internal.splitInTwo]

end Foxxll.E2E
