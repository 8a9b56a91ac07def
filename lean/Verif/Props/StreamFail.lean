import Verif.Proofs.StreamFail
/-
C142: input streams whose reads fail.
-/
namespace Foxxll.StreamFail
open Foxxll.Stream (ISt IOp firstElem)

variable {α : Type}

/-- Two blocks with one element each; the read of the first fails. -/
def first : Cfg Nat := { seqLength := 2, seq := [0, 1], bufSize := 2, disk := fun k => [k + 7], fails := fun k => k == 0, junk := fun _ => [0] }
/-- The same; the read of the second fails. -/
def second : Cfg Nat := { first with fails := fun k => k == 1 }

theorem first_ok : Ok 1 first := ⟨by decide, by decide, by decide, by decide, fun _ _ => rfl, fun _ _ => rfl⟩
theorem second_ok : Ok 1 second := ⟨by decide, by decide, by decide, by decide, fun _ _ => rfl, fun _ _ => rfl⟩

/-- The property fails: the client gets the elements of a block whose read failed before any exception; the exception comes when it goes on to the next block. -/
theorem C142_false : ∃ s s', Reach false 1 first s 0 ∧ s.got = [0] ∧ real false first 2 = [7, 8] ∧ step false 1 first s .consume = .threw s' := by
  have h := Reach.next (.copy 0) (Reach.start (rev := false) (size := 1) (c := first) 0 rfl) (by simp) rfl
  have h := Reach.next (.signal 0) h (by simp) rfl
  have h := Reach.next .wake h (by simp) rfl
  have h := Reach.next .advance h (by simp) rfl
  have h := Reach.next (.finish 0) h (by simp) rfl
  exact ⟨_, _, h, rfl, rfl, rfl⟩

/-- A client that catches the exception and goes on gets the same elements again, and again an exception, -/
theorem C142_again_false : ∃ s s', Reach false 1 first s 2 ∧ s.got = [0, 0, 0] ∧ step false 1 first s .consume = .threw s' := by
  have h := Reach.next (.copy 0) (Reach.start (rev := false) (size := 1) (c := first) 0 rfl) (by simp) rfl
  have h := Reach.next (.signal 0) h (by simp) rfl
  have h := Reach.next .wake h (by simp) rfl
  have h := Reach.next .advance h (by simp) rfl
  have h := Reach.next (.finish 0) h (by simp) rfl
  have h := Reach.threw .consume h (by simp) rfl
  have h := Reach.next .advance h (by simp) rfl
  have h := Reach.threw .consume h (by simp) rfl
  have h := Reach.next .advance h (by simp) rfl
  exact ⟨_, _, h, rfl, rfl⟩

/-- and when the stream is destroyed the program is terminated, also if the client has got right elements only and has not come to the block whose read failed. -/
theorem C142_destroy_false : ∃ s, Reach false 1 second s 0 ∧ s.got = [] ∧ second.fails 0 = false ∧ s.p.held = [(0, 0)] ∧ destroy second s = .terminated := by
  have h := Reach.next (.copy 0) (Reach.start (rev := false) (size := 1) (c := second) 0 rfl) (by simp) rfl
  have h := Reach.next (.signal 0) h (by simp) rfl
  have h := Reach.next .wake h (by simp) rfl
  exact ⟨_, h, rfl, rfl, rfl, by decide +kernel⟩

/-- What holds: in any interleaving with the I/O threads and after any number of exceptions, the elements of the blocks that the stream has left behind were right, and the reads of
these blocks did not fail; if nothing was thrown, all elements are right unless the read of the current block failed; and a stream that has come to its end has
delivered exactly the elements on the disk. -/
theorem C142_partial {rev : Bool} {size : Nat} {c : Cfg α} (hO : Ok size c) {s : ISt α} {m : Nat} (h : Reach rev size c s m) :
    (∀ j, j < passed s → c.fails j = false) ∧ real rev c (passed s) <+: s.got ∧
    (m = 0 → (∀ k b, (k, b) ∈ s.p.held → c.fails k = false) → s.got <+: real rev c c.seqLength) ∧
    (s.notFinished = false → m = 0 ∧ s.got = real rev c c.seqLength ∧ ∀ j, j < c.seqLength → c.fails j = false) := by
  obtain ⟨g, hI⟩ := reach_inv hO h
  refine ⟨hI.good, got_passed hI, ?_, ?_⟩
  · intro hm hh
    have hall : ∀ j, j < s.p.returned.length → c.fails j = false := by
      intro j hj
      rcases passed_held hI.inv with ⟨k, e1, e2, e3⟩ | ⟨_, e2⟩
      · by_cases e : j = k
        · rw [e]; exact hh k s.blk (by rw [e1]; simp)
        · exact hI.good j (by omega)
      · exact hI.good j (by omega)
    have hle : s.p.returned.length ≤ c.seqLength := by
      have hpi := Prefetch.reach_inv hO.order.good hI.inv.reach
      have h1 : s.p.nextconsume ≤ c.seqLength := hpi.nc
      rcases hpi.wait with h2 | h2
      · have h2 : s.p.nextconsume = s.p.returned.length := h2.2
        omega
      · have h2 : s.p.nextconsume = s.p.returned.length + 1 := h2.2
        omega
    rw [hI.zero hm]
    refine List.IsPrefix.trans ?_ (real_prefix hle)
    rw [← upTo_real hall]
    cases hI.inv.shape with
    | idle k a1 a2 a3 a4 a5 a6 =>
      rw [show g = _ from a6, show s.p.returned.length = _ from a5, Stream.upTo_succ, List.prefix_append_right_inj]
      exact List.take_prefix _ _
    | consuming k a1 a3 a4 a5 a6 a7 => rw [show g = _ from a7, show s.p.returned.length = _ from a5]; exact List.prefix_refl _
    | waiting a1 a3 a4 a6 a7 => rw [show g = _ from a7]; exact List.prefix_refl _
    | finished a1 a2 a3 a4 a6 =>
      have hp := hI.fin a2
      unfold passed at hp
      rw [show s.p.held = _ from a4] at hp
      rw [show g = _ from a6, show s.p.returned.length = c.seqLength by simpa using hp]
      exact List.prefix_refl _
  · intro hn
    have hp := hI.fin hn
    have hgood : ∀ j, j < c.seqLength → c.fails j = false := fun j hj => hI.good j (by omega)
    have hm : m = 0 := by
      by_cases hm : m = 0
      · exact hm
      · obtain ⟨k, rest, h1, h2, _⟩ := hI.more (by omega)
        exfalso
        rcases passed_held hI.inv with ⟨k', e1, e2, e3⟩ | ⟨e1, _⟩
        · rw [h2] at e1
          injection e1 with e1 _; injection e1 with e1 _; subst e1
          have hpi := Prefetch.reach_inv hO.order.good hI.inv.reach
          have h3 : s.p.nextconsume ≤ c.seqLength := hpi.nc
          rcases hpi.wait with h4 | h4
          · have h4 : s.p.nextconsume = s.p.returned.length := h4.2
            omega
          · have h4 : s.p.nextconsume = s.p.returned.length + 1 := h4.2
            omega
        · rw [h2] at e1; cases e1
    refine ⟨hm, ?_, hgood⟩
    rw [hI.zero hm, ← upTo_real hgood]
    cases hI.inv.shape with
    | finished a1 a2 a3 a4 a6 => exact a6
    | idle k a1 a2 => rw [show s.notFinished = _ from a2] at hn; cases hn
    | consuming k a1 => rw [hI.nf (by rw [show s.pc = _ from a1]; simp)] at hn; cases hn
    | waiting a1 => rw [hI.nf (by rw [show s.pc = _ from a1]; simp)] at hn; cases hn

/-- When an exception comes: exactly when the client leaves a block whose read failed, once this read is finished; nothing but the position in the block changes.  No other call throws. -/
theorem C142_throws {rev : Bool} {size : Nat} {c : Cfg α} (hO : Ok size c) {s : ISt α} {m : Nat} (h : Reach rev size c s m) (op : IOp) (s' : ISt α) :
    step rev size c s op = .threw s' ↔ op = .consume ∧ s.pc = .consuming ∧ c.fails (passed s) = true ∧ s.p.reqs s.blk = some (passed s, .ready) ∧
    s' = { s with pc := .idle } := by
  obtain ⟨g, hI⟩ := reach_inv hO h
  rw [step_threw]
  constructor
  · rintro ⟨h1, h2, h3, h4⟩
    obtain ⟨k, e1, e2, _⟩ := consuming_at hI.inv h2
    have : passed s = k := by unfold passed; rw [e1, e2]; simp
    rw [held_req hO hI.inv e1] at h3
    refine ⟨h1, h2, by rw [this]; exact h3, ?_, h4.2⟩
    obtain ⟨_, st, _, hr⟩ := (Prefetch.reach_inv hO.order.good hI.inv.reach).held k s.blk (by show (k, s.blk) ∈ s.p.held; rw [e1]; simp)
    have hr : s.p.reqs s.blk = some (k, st) := hr
    have h5 := h4.1
    unfold done at h5
    rw [hr] at h5
    rw [hr, this]
    cases st with
    | ready => rfl
    | _ => cases h5
  · rintro ⟨h1, h2, h3, h4, h5⟩
    obtain ⟨k, e1, e2, _⟩ := consuming_at hI.inv h2
    have : passed s = k := by unfold passed; rw [e1, e2]; simp
    rw [this] at h3
    exact ⟨h1, h2, by rw [held_req hO hI.inv e1]; exact h3, by unfold done; rw [h4], h5⟩

/-- After exceptions the stream stays at the block whose read failed: it has delivered what the read left in the buffer once for each exception, and delivers it again. -/
theorem C142_stuck {rev : Bool} {size : Nat} {c : Cfg α} (hO : Ok size c) {s : ISt α} {m : Nat} (h : Reach rev size c s m) (hm : 0 < m) :
    c.fails (passed s) = true ∧ s.notFinished = true ∧ destroy c s = .terminated ∧
    ∃ n, s.got = real rev c (passed s) ++ (List.replicate m (elems rev (c.junk (passed s)))).flatten ++ (elems rev (c.junk (passed s))).take n := by
  obtain ⟨g, hI⟩ := reach_inv hO h
  obtain ⟨k, rest, h1, h2, h3, h4⟩ := hI.more hm
  have hk : passed s = k ∧ s.p.returned.length = k + 1 := by
    rcases passed_held hI.inv with ⟨k', e1, e2, e3⟩ | ⟨e1, _⟩
    · rw [h2] at e1
      injection e1 with e1 _; injection e1 with e1 _; subst e1
      exact ⟨e3, e2⟩
    · rw [h2] at e1; cases e1
  have hj : c.eff.disk k = c.junk k := by show (if c.fails k then _ else _) = _; rw [h1]; rfl
  have hnf : s.notFinished = true := by
    cases hn : s.notFinished with
    | true => rfl
    | false =>
      have := (C142_partial hO h).2.2.2 hn
      omega
  refine ⟨by rw [hk.1]; exact h1, hnf, ?_, ?_⟩
  · have hpi := Prefetch.reach_inv hO.order.good hI.inv.reach
    obtain ⟨_, st, _, hr⟩ := hpi.held k s.blk (by show (k, s.blk) ∈ s.p.held; rw [h2]; simp)
    have hr : s.p.reqs s.blk = some (k, st) := hr
    have hb := (hpi.req _ _ _ hr).2.2.1
    unfold destroy
    rw [if_pos]
    exact List.any_eq_true.2 ⟨s.blk, List.mem_range.2 hb, by unfold bad; rw [hr]; exact h1⟩
  · have hu : Stream.upTo rev c.eff k = real rev c k := upTo_real fun j hj => hI.good j (by omega)
    rw [hk.1, ← hu, h4, hj]
    cases hI.inv.shape with
    | idle k' a1 a2 a3 a4 a5 a6 =>
      have : k' = k := by
        have : s.p.returned.length = k' + 1 := a5
        omega
      subst this
      rw [show g = _ from a6] at h3
      rw [← List.append_cancel_left h3, hj]
      exact ⟨_, rfl⟩
    | consuming k' a1 a3 a4 a5 a6 a7 =>
      have : k' = k := by
        have : s.p.returned.length = k' + 1 := a5
        omega
      subst this
      rw [show g = _ from a7, Stream.upTo_succ] at h3
      rw [← List.append_cancel_left h3, hj]
      exact ⟨(elems rev (c.junk k')).length, by rw [List.take_length]; rfl⟩
    | waiting a1 a3 a4 => rw [show s.p.held = _ from a4] at h2; cases h2
    | finished a1 a2 a3 a4 => rw [show s.p.held = _ from a4] at h2; cases h2

/-- When the destructor terminates the program: exactly if the read of a block failed that has been submitted and not been left behind, that is, of one of the next
blocks of the prefetch sequence, however far away in the stream it is. -/
theorem C142_destroy {rev : Bool} {size : Nat} {c : Cfg α} (hO : Ok size c) {s : ISt α} {m : Nat} (h : Reach rev size c s m) : destroy c s = .terminated ↔
    ∃ k ∈ c.seq.take (min c.seqLength (min c.bufSize c.seqLength + passed s)), passed s ≤ k ∧ c.fails k = true := by
  obtain ⟨g, hI⟩ := reach_inv hO h
  exact destroy_iff hO hI

/-- In particular not at the end of the stream. -/
theorem C142_end {rev : Bool} {size : Nat} {c : Cfg α} (hO : Ok size c) {s : ISt α} {m : Nat} (h : Reach rev size c s m) (hn : s.notFinished = false) : destroy c s = .ok := by
  cases hd : destroy c s with
  | ok => rfl
  | terminated =>
    obtain ⟨k, hk, _, hf⟩ := (C142_destroy hO h).1 hd
    have hk : k < c.seqLength := List.mem_range.1 (hO.seq.mem_iff.1 (List.mem_of_mem_take hk))
    rw [(C142_partial hO h).2.2.2 hn |>.2.2 k hk] at hf
    cases hf

/-- A stream that comes to its end, and one that leaves its first block behind and stands at a block whose read failed. -/
example : ∃ s, Reach true 1 { first with fails := fun _ => false } s 0 ∧ s.notFinished = false ∧ s.got = [7, 8] := by
  have h := Reach.next (.copy 0) (Reach.start (rev := true) (size := 1) (c := { first with fails := fun _ => false }) 0 rfl) (by simp) rfl
  have h := Reach.next (.signal 0) h (by simp) rfl
  have h := Reach.next .wake h (by simp) rfl
  have h := Reach.next (.copy 1) h (by simp) rfl
  have h := Reach.next (.signal 1) h (by simp) rfl
  have h := Reach.next .advance h (by simp) rfl
  have h := Reach.next (.finish 0) h (by simp) rfl
  have h := Reach.next .consume h (by simp) rfl
  have h := Reach.next .wake h (by simp) rfl
  have h := Reach.next .advance h (by simp) rfl
  have h := Reach.next (.finish 1) h (by simp) rfl
  have h := Reach.next .consume h (by simp) rfl
  exact ⟨_, h, rfl, rfl⟩

example : ∃ s, Reach false 1 second s 1 ∧ passed s = 1 ∧ s.got = [7, 0] := by
  have h := Reach.next (.copy 0) (Reach.start (rev := false) (size := 1) (c := second) 0 rfl) (by simp) rfl
  have h := Reach.next (.signal 0) h (by simp) rfl
  have h := Reach.next .wake h (by simp) rfl
  have h := Reach.next (.copy 1) h (by simp) rfl
  have h := Reach.next (.signal 1) h (by simp) rfl
  have h := Reach.next .advance h (by simp) rfl
  have h := Reach.next (.finish 0) h (by simp) rfl
  have h := Reach.next .consume h (by simp) rfl
  have h := Reach.next .wake h (by simp) rfl
  have h := Reach.next .advance h (by simp) rfl
  have h := Reach.next (.finish 1) h (by simp) rfl
  have h := Reach.threw .consume h (by simp) rfl
  exact ⟨_, h, rfl, rfl⟩

end Foxxll.StreamFail
