/-
Property C98: what is written to a block is what is read from it; the block manager, the request queues and the
files together.
-/
import Verif.Proofs.StoreRun
import Verif.Props.Queues
import Verif.Proofs.StoreAux

namespace Foxxll.Store
open Foxxll

/-! ### C98 -/

/-- **C98 is false**: in the default kind of queue, after the cancellation of a read of another block, a read is served before
the write of its block submitted before it, and returns the old content of the disk. -/
theorem C98_false : ∃ s s' h r q e, Life .twoQ id [(8, false)] (fun _ => True) s h ∧ (s.qs 0).wpc = .serving r ∧ s.reqs r = some q ∧ q.write = false ∧
    step .twoQ id s (.run 0 .work slow) = some s' ∧ s'.failed = [] ∧ last (s.qs 0).cancelled (h.seen r) = some e ∧
    e.data = [11, 12] ∧ s'.mem q.buf = [0, 0] := by
  obtain ⟨s, h, hl, hp⟩ := witness (P := fun _ => True) (fun _ => true) (fun _ _ => trivial) bufs opsD okD okD_run
  simp only [okD, Bool.and_eq_true, beq_iff_eq] at hp
  obtain ⟨⟨⟨⟨h1, h2⟩, h3⟩, h4⟩, h5⟩ := hp
  obtain ⟨e, h6, h7⟩ := Option.map_eq_some_iff.1 h4
  obtain ⟨s', h8, h9⟩ := Option.map_eq_some_iff.1 h5
  injection h7 with h7 h7'
  injection h9 with h9 h9'
  exact ⟨s, s', h, 2, _, e, hl, h1, h2, rfl, h8, h9, h6, h7', h9'⟩

/-- **C98, reads**: a read of a block that is served without error returns the data of the last write of
the block before it that was not canceled, if there is one since the allocation of the block and it did not fail; for any number of disks and
queues, any interleaving of clients and workers, both kinds of queue.  Missing for C98: cancellation in the default kind of queue. -/
theorem C98_partial {k : Queue.Kind} {qid : Nat → Nat} {cfgs : List (Nat × Bool)} {s s' : St} {h : Hist} {i r : Nat} {q : Req} {e : Wrote} {os : Nat → Files.Sys}
    (hl : Life k qid cfgs (Orderly k) s h) (hw : (s.qs i).wpc = .serving r) (hq : s.reqs r = some q) (hr : q.write = false)
    (hs : step k qid s (.run i .work os) = some s') (hf : r ∉ s'.failed) (he : last (s.qs i).cancelled (h.seen r) = some e) (hef : e.r ∉ s.failed) :
    s'.mem q.buf = e.data := by
  have I := life_inv hl
  obtain ⟨q1, g1, g2, g3, g4, g5⟩ := I.serving hw
  rw [hq] at g1; injection g1 with g1; subst g1
  have hpen : Pending qid s r := ⟨q, hq, by rw [g2]; exact g4, by rw [g2]; exact g5⟩
  obtain ⟨ht, _, _⟩ := I.rd r q hpen hq hr
  rw [← g2] at he g3 g4
  -- the write is served
  have hem : e ∈ h.seen r := List.mem_of_find?_eq_some he
  obtain ⟨q2, p1, p2, p3, p4, p5, p6, p7⟩ := ht.req e hem
  have hnc : e.r ∉ (s.qs (qid q.disk)).cancelled := by
    have := List.find?_some he
    simpa using this
  have hsrv : e.r ∈ (s.qs (qid q.disk)).served := by
    have h1 := I.req _ _ p1
    rw [p3] at h1
    exact order (I.que _) (ht.stp r rfl e hem) (I.req _ _ hq) h1 (.inr p2) hnc g3
  have hv := ht.last_val (I.que _) he hsrv hef
  -- the transfer
  simp only [step] at hs
  obtain ⟨q', h1, h2⟩ := queue_some hs
  have et : s.transfer i os = s.serve r os := by unfold St.transfer; rw [hw]
  rw [et] at h1 h2
  have hM := serve_moved os hq (I.buf r q hpen hq) (I.tail q.disk)
  have hf' : r ∉ (s.serve r os).failed := by rw [h2] at hf; exact hf
  have hm : s'.mem q.buf = (s.serve r os).mem q.buf := by rw [h2]
  rw [hm]
  have hlen : ((s.serve r os).mem q.buf).length = q.size := by rw [hM.len]; exact I.buf r q hpen hq
  apply List.ext_getElem (by rw [hlen, p6])
  intro j h3 h4
  have h5 := hM.get hr hf' j (by omega)
  rw [hv j (by omega)] at h5
  rw [List.getD_eq_getElem?_getD, List.getD_eq_getElem?_getD, List.getElem?_eq_getElem h3, List.getElem?_eq_getElem h4] at h5
  exact h5

/-- Two disks, three writes, one of them of the block read; the system transfers one byte at a time. -/
example : ∃ s s' h e, Life .twoQ id [(8, false), (8, false)] (Orderly .twoQ) s h ∧ (s.qs 0).wpc = .serving 3 ∧ s.reqs 3 = some ⟨0, false, 0, 2, 7⟩ ∧
    step .twoQ id s (.run 0 .work slow) = some s' ∧ 3 ∉ s'.failed ∧ last (s.qs 0).cancelled (h.seen 3) = some e ∧ e.r ∉ s.failed ∧ e.data = [11, 12] := by
  obtain ⟨s, h, hl, hp⟩ := witness (P := Orderly .twoQ) _ (fun _ => orderly_of) bufs opsA okA okA_run
  simp only [okA, Bool.and_eq_true, beq_iff_eq] at hp
  obtain ⟨⟨⟨⟨h1, h2⟩, h3⟩, h4⟩, h5⟩ := hp
  obtain ⟨e, h6, h7⟩ := Option.map_eq_some_iff.1 h4
  obtain ⟨s', h8, h9⟩ := Option.map_eq_some_iff.1 h5
  injection h7 with h7 h7'
  injection h9 with h9 h9'
  exact ⟨s, s', h, e, hl, h1, h2, h8, by rw [h9]; simp, h6, by rw [h3]; simp, h7'⟩

/-- One queue, the last write before the read is canceled, and the block is written again while the read is pending. -/
example : ∃ s s' h e, Life .oneQ id [(8, false)] (Orderly .oneQ) s h ∧ (s.qs 0).wpc = .serving 2 ∧ s.reqs 2 = some ⟨0, false, 0, 2, 7⟩ ∧
    step .oneQ id s (.run 0 .work slow) = some s' ∧ 2 ∉ s'.failed ∧ last (s.qs 0).cancelled (h.seen 2) = some e ∧ e.r ∉ s.failed ∧
    (s.qs 0).cancelled = [1] ∧ e.data = [11, 12] := by
  obtain ⟨s, h, hl, hp⟩ := witness (P := Orderly .oneQ) (fun _ => true) (fun _ _ hk => by cases hk) bufs opsB okB okB_run
  simp only [okB, Bool.and_eq_true, beq_iff_eq] at hp
  obtain ⟨⟨⟨⟨⟨h1, h2⟩, h3⟩, hc⟩, h4⟩, h5⟩ := hp
  obtain ⟨e, h6, h7⟩ := Option.map_eq_some_iff.1 h4
  obtain ⟨s', h8, h9⟩ := Option.map_eq_some_iff.1 h5
  injection h7 with h7 h7'
  injection h9 with h9 h9'
  exact ⟨s, s', h, e, hl, h1, h2, h8, by rw [h9]; simp, h6, by rw [h3]; simp, hc, h7'⟩

/-- **C98, reads with cancellation**: in both kinds of queue, whatever is canceled before and after: a read that is submitted when no write of the block is pending
returns, if it is served without error, the data of the last write of the block that was not canceled. -/
theorem C98_wait {k : Queue.Kind} {qid : Nat → Nat} {cfgs : List (Nat × Bool)} {s0 s1 s s' : St} {h0 h : Hist} {i r buf d : Nat} {b : Mgr.Bid} {e : Wrote}
    {os : Nat → Files.Sys} (hl : Life k qid cfgs (fun _ => True) s0 h0) (ha : Allowed k qid s0 (.io r false b buf)) (hd : b.storage = .managed d) (hi : qid d = i)
    (hn : ∀ x q, Pending qid s0 x → s0.reqs x = some q → q.write = true → ¬ q.On b)
    (h1 : step k qid s0 (.io r false b buf) = some s1) (hla : Later k qid s1 (h0.next s0 (.io r false b buf)) s h)
    (hw : (s.qs i).wpc = .serving r) (hs : step k qid s (.run i .work os) = some s') (hf : r ∉ s'.failed)
    (he : last (s0.qs i).cancelled (h0.of b) = some e) (hef : e.r ∉ s.failed) : s'.mem buf = e.data := by
  have hl1 := Life.next _ hl ha trivial h1
  have I := life_any (hla.life hl1)
  obtain ⟨g1, g2, g3⟩ := wait_served (life_any hl) I ha hd hi hn h1 hla he
  exact I.read hw g3 rfl hs hf g1 g2 hef

/-- The default kind of queue; a read of another block and the last write of the block are canceled. -/
example : ∃ s0 h0 s1 s s' h e, Life .twoQ id [(8, false)] (fun _ => True) s0 h0 ∧ Allowed .twoQ id s0 (.io 2 false (blk 0 0) 7) ∧
    (∀ x q, Pending id s0 x → s0.reqs x = some q → q.write = true → ¬ q.On (blk 0 0)) ∧ step .twoQ id s0 (.io 2 false (blk 0 0) 7) = some s1 ∧
    Later .twoQ id s1 (h0.next s0 (.io 2 false (blk 0 0) 7)) s h ∧ (s.qs 0).wpc = .serving 2 ∧ step .twoQ id s (.run 0 .work slow) = some s' ∧ 2 ∉ s'.failed ∧
    (s0.qs 0).cancelled = [0, 3] ∧ last (s0.qs 0).cancelled (h0.of (blk 0 0)) = some e ∧ e.r ∉ s.failed ∧ e.data = [11, 12] := by
  obtain ⟨s0, h0, s1, s, h, a1, a2, a3, a4, a5, a6, a7⟩ := witness2 (fun _ => true) bufs opsF (.io 2 false (blk 0 0) 7) ([.run 0 .signal slow] ++ works 0 6) okF0 okF okF_run
  simp only [okF0, okF, Bool.and_eq_true, beq_iff_eq] at a4 a7
  obtain ⟨⟨b1, b2⟩, b3⟩ := a4
  obtain ⟨⟨b4, b5⟩, b6⟩ := a7
  obtain ⟨e, b7, b8⟩ := Option.map_eq_some_iff.1 b3
  obtain ⟨s', b9, b10⟩ := Option.map_eq_some_iff.1 b6
  injection b8 with b8 b8'
  refine ⟨s0, h0, s1, s, s', h, e, a1, a3, fun x q hx hq hw hon => ?_, a5, a6, b4, b9, by rw [b10]; simp, b2, b7, by rw [b5]; simp, b8'⟩
  have := allPending_of a2 b1 hx hq
  simp [hw, onB_of hon] at this

/-- **C98, disks**: when the last write of a block that was not canceled is served and did not fail, the block's bytes on the disk are the
data of that write, whatever happens to other blocks, whatever is canceled, and also if its place was used before by a deleted block with pending writes. -/
theorem C98_disk {k : Queue.Kind} {qid : Nat → Nat} {cfgs : List (Nat × Bool)} {P : Op → Prop} {s : St} {h : Hist} {b : Mgr.Bid} {d : Nat} {e : Wrote}
    (hl : Life k qid cfgs P s h) (hb : b ∈ s.m.live) (hd : b.storage = .managed d)
    (he : last (s.qs (qid d)).cancelled (h.of b) = some e) (hes : ¬ Pending qid s e.r) (hef : e.r ∉ s.failed) :
    Files.pread (s.files d) b.off b.size = e.data := by
  have I := life_any hl
  have ht := I.trk b hb d hd
  have hem : e ∈ h.of b := List.mem_of_find?_eq_some he
  obtain ⟨q2, p1, p2, p3, p4, p5, p6, p7⟩ := ht.req e hem
  have hnc : e.r ∉ (s.qs (qid d)).cancelled := by
    have := List.find?_some he
    simpa using this
  have hsrv : e.r ∈ (s.qs (qid d)).served := by
    by_cases hc : e.r ∈ (s.qs (qid d)).served
    · exact hc
    · exact absurd ⟨q2, p1, by rw [p3]; exact hc, by rw [p3]; exact hnc⟩ hes
  have hv := ht.last_val (I.que _) he hsrv hef
  apply List.ext_getElem (by simp [Files.pread, p6])
  intro j h3 h4
  have h5 := hv j (by omega)
  rw [List.getD_eq_getElem?_getD, List.getElem?_eq_getElem h4] at h5
  simpa [Files.pread] using h5

/-- The place of a deleted block whose write was pending is allocated and written again. -/
example : ∃ s h e, Life .twoQ id [(2, true)] (Orderly .twoQ) s h ∧ blk 0 0 ∈ s.m.live ∧ (blk 0 0).storage = .managed 0 ∧
    last (s.qs (id 0)).cancelled (h.of (blk 0 0)) = some e ∧ ¬ Pending id s e.r ∧ e.r ∉ s.failed ∧ e.data = [21, 22] := by
  obtain ⟨s, h, hl, hp⟩ := witness (P := Orderly .twoQ) _ (fun _ => orderly_of) bufs opsC okC okC_run
  simp only [okC, Bool.and_eq_true, beq_iff_eq] at hp
  obtain ⟨⟨⟨⟨h1, h2⟩, h3⟩, h4⟩, h5⟩ := hp
  obtain ⟨e, h6, h7⟩ := Option.map_eq_some_iff.1 h4
  injection h7 with h7 h7'
  refine ⟨s, h, e, hl, by rw [h1]; simp, rfl, h6, ?_, by rw [h2]; simp, h7'⟩
  rintro ⟨q, p1, p2, p3⟩
  have I := life_inv hl
  have := (I.trk (blk 0 0) (by rw [h1]; simp) 0 rfl).req e (List.mem_of_find?_eq_some h6)
  obtain ⟨q2, g1, _, g3, _⟩ := this
  rw [p1] at g1; injection g1 with g1; subst g1
  rw [g3] at p2
  apply p2
  show e.r ∈ (s.qs 0).served
  rw [h3, h7]; simp

/-- **C98, no errors of its own**: the transfer of a request fails only if the operating system does. -/
theorem C98_errors {k : Queue.Kind} {qid : Nat → Nat} {cfgs : List (Nat × Bool)} {P : Op → Prop} {s s' : St} {h : Hist} {i r : Nat} {q : Req} {os : Nat → Files.Sys}
    (hl : Life k qid cfgs P s h) (hw : (s.qs i).wpc = .serving r) (hq : s.reqs r = some q)
    (hs : step k qid s (.run i .work os) = some s') (hg : Files.Good os q.size) (ho : q.off + q.size ≤ 2 ^ 63) : r ∉ s'.failed := by
  have I := life_any hl
  obtain ⟨q1, g1, g2, g3, g4, g5⟩ := I.serving hw
  rw [hq] at g1; injection g1 with g1; subst g1
  have hpen : Pending qid s r := ⟨q, hq, by rw [g2]; exact g4, by rw [g2]; exact g5⟩
  simp only [step] at hs
  obtain ⟨q', h1, h2⟩ := queue_some hs
  have et : s.transfer i os = s.serve r os := by unfold St.transfer; rw [hw]
  rw [et] at h1 h2
  have hfail := serve_good (x := r) (os := os) hq (I.buf r q hpen hq) (I.tail q.disk) hg ho (fun hr => Nat.le_trans (I.rd r q hpen hq hr).2.1 (I.siz _))
  rw [h2]
  show r ∉ (s.serve r os).failed
  rw [hfail]
  intro hc
  obtain ⟨q2, p1, p2⟩ := life_failed hl r hc
  rw [hq] at p1; injection p1 with p1; subst p1
  rw [g2] at p2
  exact g4 p2

/-- A read of two bytes from a system that transfers one byte at a time. -/
example : ∃ s s' h, Life .twoQ id [(8, false), (8, false)] (Orderly .twoQ) s h ∧ (s.qs 0).wpc = .serving 3 ∧ s.reqs 3 = some ⟨0, false, 0, 2, 7⟩ ∧
    step .twoQ id s (.run 0 .work slow) = some s' ∧ Files.Good slow 2 := by
  obtain ⟨s, h, hl, hp⟩ := witness (P := Orderly .twoQ) _ (fun _ => orderly_of) bufs opsA okA okA_run
  simp only [okA, Bool.and_eq_true, beq_iff_eq] at hp
  obtain ⟨⟨⟨⟨h1, h2⟩, h3⟩, h4⟩, h5⟩ := hp
  obtain ⟨s', h8, h9⟩ := Option.map_eq_some_iff.1 h5
  exact ⟨s, s', h, hl, h1, h2, h8, fun c _ => ⟨rfl, rfl, 1, rfl, by omega⟩⟩

/-- **C98, cancellation**: `cancel` takes the request out of the queue of its disk unless the worker has taken it, and nothing else
happens. -/
theorem C98_cancel {k : Queue.Kind} {qid : Nat → Nat} {cfgs : List (Nat × Bool)} {P : Op → Prop} {s s' : St} {h : Hist} {r : Nat} {q : Req}
    (hl : Life k qid cfgs P s h) (hq : s.reqs r = some q) (hs : step k qid s (.cancel r) = some s') :
    (r ∈ (s'.qs (qid q.disk)).cancelled ↔ r ∉ (s.qs (qid q.disk)).started) ∧ s'.files = s.files ∧ s'.mem = s.mem ∧
    (∀ i, i ≠ qid q.disk → s'.qs i = s.qs i) := by
  have I := life_any hl
  simp only [step, hq] at hs
  obtain ⟨q', h1, h2⟩ := queue_some hs
  subst h2
  have hR : Queue.Reach k Queue.Any (s.qs (qid q.disk)) := reach_any (I.que _)
  obtain ⟨b, _, h4, h5⟩ := Queue.C21_cancel hR ⟨fun w' hw' => by
    obtain ⟨q2, g1, g2, _⟩ := I.sub _ _ _ hw'
    rw [hq] at g1; injection g1 with g1; subst g1
    exact g2.symm, I.spc _⟩ h1
  have hin := I.ids r q hq
  have ho := Queue.reach_ord hR
  refine ⟨?_, rfl, rfl, fun i hi => by simp [upd, hi]⟩
  have e : ({ s with qs := upd s.qs (qid q.disk) q' } : St).qs (qid q.disk) = q' := by simp [upd]
  rw [e, h4]
  have hex : r ∈ (s.qs (qid q.disk)).cancelled → r ∉ (s.qs (qid q.disk)).started := by
    intro hc hn
    have hd : r ∈ Queue.due (s.qs (qid q.disk)) := (Queue.due_perm ho).mem_iff.2 (by simp [hn])
    simp only [Queue.due, List.mem_filter] at hd
    simp [hc] at hd
  cases b with
  | true => have := h5.1 rfl; simp [this.2.1]
  | false =>
    simp only [Bool.false_eq_true, if_false]
    constructor
    · exact hex
    · intro hn
      apply Decidable.byContradiction
      intro hc
      have := h5.2 ⟨hin, hn, hc⟩
      cases this

example : ∃ s h, Life .oneQ (· + 1) [(8, false)] (Orderly .oneQ) s h ∧ s.reqs 0 = some ⟨0, true, 0, 2, 1⟩ ∧ s.reqs 1 = some ⟨0, false, 0, 2, 7⟩ ∧
    (s.qs 1).started = [0] ∧ (step .oneQ (· + 1) s (.cancel 1)).isSome ∧ (step .oneQ (· + 1) s (.cancel 0)).isSome := by
  obtain ⟨s, h, hl, hp⟩ := witness (P := Orderly .oneQ) (fun _ => true) (fun _ _ hk => by cases hk) bufs opsE okE okE_run
  simp only [okE, Bool.and_eq_true, beq_iff_eq] at hp
  obtain ⟨⟨⟨⟨h1, h2⟩, h3⟩, h4⟩, h5⟩ := hp
  exact ⟨s, h, hl, h1, h2, h3, h4, h5⟩

/-- **C98, growth**: a call of the block manager leaves the file of a disk alone unless the disk grows; then the file gets the size of the disk (and keeps what
was allocated); nothing else changes. -/
theorem C98_grow {k : Queue.Kind} {qid : Nat → Nat} {s s' : St} {op : Mgr.MOp} (hs : step k qid s (.mgr op) = some s') {d : Nat} {dk dk' : Alloc.Disk}
    (h1 : s.m.mgr.disks[d]? = some dk) (h2 : s'.m.mgr.disks[d]? = some dk') :
    dk.diskBytes ≤ dk'.diskBytes ∧ (dk'.diskBytes = dk.diskBytes → s'.files d = s.files d) ∧
    (dk.diskBytes < dk'.diskBytes → (s'.files d).size = dk'.diskBytes ∧ ∀ i, i < dk.diskBytes → (s'.files d).byte i = (s.files d).byte i) ∧
    s'.mem = s.mem ∧ s'.qs = s.qs ∧ s'.failed = s.failed := by
  simp only [step] at hs
  injection hs with hs
  have e1 : bytesOf s.m d = dk.diskBytes := by unfold bytesOf; rw [h1]
  have e2 : bytesOf (s.m.step op) d = dk'.diskBytes := by
    rw [← hs] at h2
    unfold bytesOf
    simp only at h2
    rw [h2]
  have hle := bytesOf_step s.m op d
  rw [e1, e2] at hle
  have hf : s'.files d = grown dk.diskBytes dk'.diskBytes (s.files d) := by rw [← hs, ← e1, ← e2]
  refine ⟨hle, ?_, ?_, by rw [← hs], by rw [← hs], by rw [← hs]⟩
  · intro e
    rw [hf]; unfold grown
    rw [if_neg (by omega)]
  · intro hlt
    rw [hf]
    refine ⟨?_, fun i hi => grown_byte hi⟩
    unfold grown
    rw [if_pos hlt]
    rfl

/-- A disk of 2 bytes that grows by a second block of 2 bytes; then a third allocation of 4 bytes and a deletion. -/
example : ∃ s s', start [(2, true)] bufs = some s ∧ step .oneQ id s (.mgr (.new (fun _ => 0) 0 [⟨.null, 0, 2, 2⟩, ⟨.null, 0, 2, 2⟩])) = some s' ∧
    (s.files 0).size = 2 ∧ (s'.files 0).size = bytesOf s'.m 0 ∧ bytesOf s.m 0 = 2 ∧ 2 < bytesOf s'.m 0 := by
  refine ⟨_, _, rfl, rfl, ?_, ?_, ?_, ?_⟩ <;> decide +kernel

end Foxxll.Store
