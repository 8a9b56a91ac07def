/-
Property C140: what is written to a block is what is read from it, with files of any kind and with `discard`; nothing undefined happens; no file of a
deleted block stays.
-/
import Verif.Proofs.DevAux

namespace Foxxll.DStore
open Foxxll
open Foxxll.Store (Req Wrote Hist last blk bufs order)

/-- **C140 is false**, also with the queue for which C98 is proved with cancellation: a read that is pending when its block is deleted is served
after the region has been discarded.  With a memory file it returns uninitialised memory, with one file per block zeros (the read
makes the file again), although a write of the block was served before the read was submitted.  (With `syscall_file` it returns the data written, C98.) -/
theorem C140_false : (∃ s s' h r q e, Life .oneQ (fun _ => 0) [(8, false), (8, false)] kinds (fun _ _ => True) s h ∧ (s.qs 0).wpc = .serving r ∧
      s.reqs r = some q ∧ q.write = false ∧ q.disk = 0 ∧ step .oneQ (fun _ => 0) s (.run 0 .work slow) = some s' ∧ s'.failed = [] ∧
      last (s.qs 0).cancelled (h.seen r) = some e ∧ e.data = [11, 12] ∧ s'.mem q.buf = [77, 77]) ∧
    (∃ s s' h r q e, Life .oneQ (fun _ => 0) [(8, false), (8, false)] kinds (fun _ _ => True) s h ∧ (s.qs 0).wpc = .serving r ∧
      s.reqs r = some q ∧ q.write = false ∧ q.disk = 1 ∧ step .oneQ (fun _ => 0) s (.run 0 .work slow) = some s' ∧ s'.failed = [] ∧
      last (s.qs 0).cancelled (h.seen r) = some e ∧ e.data = [11, 12] ∧ s'.mem q.buf = [0, 0]) := by
  have key : ∀ d x, ((start [(8, false), (8, false)] kinds bufs).bind fun s => (runB .oneQ (fun _ => 0) (fun _ _ _ => true) s ⟨[], fun _ => []⟩ [] (opsB d)).map
      fun y => okB d y.1 y.2 && endB x y.1) = some true →
      ∃ s s' h r q e, Life .oneQ (fun _ => 0) [(8, false), (8, false)] kinds (fun _ _ => True) s h ∧ (s.qs 0).wpc = .serving r ∧
      s.reqs r = some q ∧ q.write = false ∧ q.disk = d ∧ step .oneQ (fun _ => 0) s (.run 0 .work slow) = some s' ∧ s'.failed = [] ∧
      last (s.qs 0).cancelled (h.seen r) = some e ∧ e.data = [11, 12] ∧ s'.mem q.buf = x := by
    intro d x hrun
    obtain ⟨s, h, hl, hp⟩ := witness (P := fun _ _ => True) _ (fun _ _ _ _ _ => trivial) kinds_opened bufs (opsB d) (fun s h => okB d s h && endB x s) hrun
    simp only [okB, endB, Bool.and_eq_true, beq_iff_eq] at hp
    obtain ⟨⟨⟨⟨⟨h1, h2⟩, h3⟩, hc⟩, h4⟩, h5⟩ := hp
    obtain ⟨e, h6, h7⟩ := Option.map_eq_some_iff.1 h4
    obtain ⟨s', h8, h9⟩ := Option.map_eq_some_iff.1 h5
    injection h7 with h7 h7'
    injection h9 with h9 h9'
    exact ⟨s, s', h, 1, _, e, hl, h1, h2, rfl, rfl, h8, h9, h6, h7', h9'⟩
  exact ⟨key 0 _ okB_run, key 1 _ okB_run1⟩

/-- **C140, reads**: as long as no block is deleted while a read of it is pending (and, with the default kind of queue, nothing is canceled), a read of a block that is
served without error returns the data of the last write of the block before it that was not canceled, if there is one since the allocation of the block and it did
not fail; for any number of disks, each with a file of any kind, any interleaving, both kinds of queue. -/
theorem C140_partial {k : Queue.Kind} {qid : Nat → Nat} {cfgs : List (Nat × Bool)} {F : Nat → Dev} {s s' : St} {h : Hist} {i r : Nat} {q : Req} {e : Wrote}
    {os : Os} (hl : Life k qid cfgs F (Orderly k qid) s h) (hw : (s.qs i).wpc = .serving r) (hq : s.reqs r = some q) (hr : q.write = false)
    (hs : step k qid s (.run i .work os) = some s') (hf : r ∉ s'.failed) (he : last (s.qs i).cancelled (h.seen r) = some e) (hef : e.r ∉ s.failed) :
    s'.mem q.buf = e.data := by
  have I := life_inv hl
  obtain ⟨q1, g1, g2, g3, g4, g5⟩ := I.serving hw
  rw [hq] at g1; injection g1 with g1; subst g1
  have hpen : Pending qid s r := ⟨q, hq, by rw [g2]; exact g4, by rw [g2]; exact g5⟩
  obtain ⟨ht, _⟩ := I.rd r q hpen hq hr
  rw [← g2] at he g3 g4
  have hem : e ∈ h.seen r := List.mem_of_find?_eq_some he
  obtain ⟨q2, p1, p2, p3, p4, p5, p6, p7⟩ := ht.req e hem
  have hnc : e.r ∉ (s.qs (qid q.disk)).cancelled := by
    have := List.find?_some he
    simpa using this
  have hsrv : e.r ∈ (s.qs (qid q.disk)).served := by
    have h1 := I.req _ _ p1
    rw [p3] at h1
    exact order (I.que _) (ht.stp r rfl e hem) (I.req _ _ hq) h1 (.inr p2) hnc g3
  have hv := ht.last_val (I.que _) he hsrv hef
  simp only [step] at hs
  obtain ⟨q', h1, h2⟩ := DStore.queue_some hs
  have et : s.transfer i os = s.serve r os := by unfold St.transfer; rw [hw]
  rw [et] at h1 h2
  have hM := serve_moved os hq (I.buf r q hpen hq) (I.rng r q hq).1 (I.rng r q hq).2 (I.ok q.disk)
  have hf' : r ∉ (s.serve r os).failed := by rw [h2] at hf; exact hf
  have hm : s'.mem q.buf = (s.serve r os).mem q.buf := by rw [h2]
  rw [hm, hM.get hr hf', hv]

/-- Four disks with files of different kinds, written, a block of each deleted, and read. -/
example : ∃ s h, Life .twoQ id [(8, false), (8, false), (8, false), (8, false)] kinds (Orderly .twoQ id) s h ∧ ∀ d, d < 4 → ∃ s' e,
    (s.qs d).wpc = .serving (4 + d) ∧ s.reqs (4 + d) = some ⟨d, false, 0, 2, 10 + d⟩ ∧
    step .twoQ id s (.run d .work slow) = some s' ∧ 4 + d ∉ s'.failed ∧ last (s.qs d).cancelled (h.seen (4 + d)) = some e ∧ e.r ∉ s.failed ∧ e.data = [11, 12] := by
  obtain ⟨s, h, hl, hp⟩ := witness (P := Orderly .twoQ id) _ orderlyB_of kinds_opened bufs opsA okA okA_run
  refine ⟨s, h, hl, fun d hd => ?_⟩
  simp only [okA, List.all_eq_true] at hp
  have := hp d (List.mem_range.2 hd)
  simp only [Bool.and_eq_true, beq_iff_eq] at this
  obtain ⟨⟨⟨⟨h1, h2⟩, h3⟩, h4⟩, h5⟩ := this
  obtain ⟨e, h6, h7⟩ := Option.map_eq_some_iff.1 h4
  obtain ⟨s', h8, h9⟩ := Option.map_eq_some_iff.1 h5
  injection h7 with h7 h7'
  injection h9 with h9 h9'
  exact ⟨s', e, h1, h2, h8, by rw [h9]; simp, h6, by rw [h3]; simp, h7'⟩

/-- **C140, reads with cancellation**: in both kinds of queue, whatever is canceled before and after: a read that is submitted when no write of the block is pending
returns, if it is served without error, the data of the last write of the block that was not canceled (no block is deleted while a read of it is pending). -/
theorem C140_wait_partial {k : Queue.Kind} {qid : Nat → Nat} {cfgs : List (Nat × Bool)} {F : Nat → Dev} {s0 s1 s s' : St} {h0 h : Hist} {i r buf d : Nat} {b : Mgr.Bid}
    {e : Wrote} {os : Os} (hl : Life k qid cfgs F (Gentle qid) s0 h0) (ha : Allowed k qid s0 (.io r false b buf)) (hd : b.storage = .managed d) (hi : qid d = i)
    (hn : ∀ x q, Pending qid s0 x → s0.reqs x = some q → q.write = true → ¬ q.On b)
    (h1 : step k qid s0 (.io r false b buf) = some s1) (hla : Later k qid (Gentle qid) s1 (next h0 s0 (.io r false b buf)) s h)
    (hw : (s.qs i).wpc = .serving r) (hs : step k qid s (.run i .work os) = some s') (hf : r ∉ s'.failed)
    (he : last (s0.qs i).cancelled (h0.of b) = some e) (hef : e.r ∉ s.failed) : s'.mem buf = e.data := by
  have hl1 := Life.next _ hl ha (fun _ _ _ h => by cases h) h1
  have I := life_any (hla.life hl1)
  obtain ⟨g1, g2, g3⟩ := wait_served (life_any hl) I ha hd hi hn h1 hla he
  exact I.read hw g3 rfl hs hf g1 g2 hef

/-- All kinds of files, the default kind of queue; a read of another block and the last write of the block are canceled, then the other block is deleted. -/
example : ∀ d, d < 4 → ∃ s0 h0 s1 s s' h e, Life .twoQ id [(8, false), (8, false), (8, false), (8, false)] kinds (Gentle id) s0 h0 ∧
    Allowed .twoQ id s0 (.io 2 false (blk d 0) 7) ∧ (∀ x q, Pending id s0 x → s0.reqs x = some q → q.write = true → ¬ q.On (blk d 0)) ∧
    step .twoQ id s0 (.io 2 false (blk d 0) 7) = some s1 ∧ Later .twoQ id (Gentle id) s1 (next h0 s0 (.io 2 false (blk d 0) 7)) s h ∧
    (s.qs d).wpc = .serving 2 ∧ step .twoQ id s (.run d .work slow) = some s' ∧ 2 ∉ s'.failed ∧
    (s0.qs d).cancelled = [0, 3] ∧ last (s0.qs d).cancelled (h0.of (blk d 0)) = some e ∧ e.r ∉ s.failed ∧ e.data = [11, 12] := by
  intro d hd
  obtain ⟨s0, h0, s1, s, h, a1, a2, a3, _, a4, a5, a6, a7⟩ := witness2 (P := Gentle id) (orderlyB .oneQ id) gentle_of kinds_opened bufs (opsE d) (.io 2 false (blk d 0) 7)
    (opsE2 d) (okE0 d) (okE d) (okE_run d hd)
  simp only [okE0, okE, Bool.and_eq_true, beq_iff_eq] at a4 a7
  obtain ⟨⟨b1, b2⟩, b3⟩ := a4
  obtain ⟨⟨b4, b5⟩, b6⟩ := a7
  obtain ⟨e, b7, b8⟩ := Option.map_eq_some_iff.1 b3
  obtain ⟨s', b9, b10⟩ := Option.map_eq_some_iff.1 b6
  injection b8 with b8 b8'
  refine ⟨s0, h0, s1, s, s', h, e, a1, a3, fun x q hx hq hw hon => ?_, a5, a6, b4, b9, by rw [b10]; simp, b2, b7, by rw [b5]; simp, b8'⟩
  have := allPending_of a2 b1 hx hq
  simp [hw, Store.onB_of hon] at this

/-- **C140, disks**: when the last write of a block that was not canceled is served and did not fail, the block's content on the disk is the
data of that write, whatever is canceled and whatever is done to other blocks, including their deletion when no read of them is pending. -/
theorem C140_disk_partial {k : Queue.Kind} {qid : Nat → Nat} {cfgs : List (Nat × Bool)} {F : Nat → Dev} {s : St} {h : Hist} {b : Mgr.Bid} {d : Nat} {e : Wrote}
    (hl : Life k qid cfgs F (Gentle qid) s h) (hb : b ∈ s.m.live) (hd : b.storage = .managed d)
    (he : last (s.qs (qid d)).cancelled (h.of b) = some e) (hes : ¬ Pending qid s e.r) (hef : e.r ∉ s.failed) :
    (s.files d).block b.off b.size = e.data := by
  have I := life_any hl
  have ht := I.trk b hb d hd
  have hem : e ∈ h.of b := List.mem_of_find?_eq_some he
  obtain ⟨q2, p1, p2, p3, p4, p5, p6, p7⟩ := ht.req e hem
  have hnc : e.r ∉ (s.qs (qid d)).cancelled := by
    have := List.find?_some he
    simpa using this
  have hsrv : e.r ∈ (s.qs (qid d)).served := by
    by_cases hc : e.r ∈ (s.qs (qid d)).served
    · exact hc
    · exact absurd ⟨q2, p1, by rw [p3]; exact hc, by rw [p3]; exact hnc⟩ hes
  exact ht.last_val (I.que _) he hsrv hef

/-- One file per block; the other block has been deleted. -/
example : ∃ s h e, Life .twoQ id [(8, false), (8, false)] kinds (Gentle id) s h ∧ blk 1 2 ∈ s.m.live ∧ (blk 1 2).storage = .managed 1 ∧
    last (s.qs (id 1)).cancelled (h.of (blk 1 2)) = some e ∧ ¬ Pending id s e.r ∧ e.r ∉ s.failed ∧ e.data = [21, 22] := by
  obtain ⟨s, h, hl, hp⟩ := witness (P := Gentle id) (fun s ids op => orderlyB .twoQ id s ids op && cleanB id s ids op)
    (fun s ids op hi h => (orderlyB_of (k := .twoQ) s ids op hi (by simp only [Bool.and_eq_true] at h; exact h.1)).2) kinds_opened bufs opsD okD okD_run
  simp only [okD, Bool.and_eq_true, beq_iff_eq] at hp
  obtain ⟨⟨⟨⟨⟨h1, h2⟩, h3⟩, h4⟩, h5⟩, h6⟩ := hp
  obtain ⟨e, h7, h8⟩ := Option.map_eq_some_iff.1 h6
  injection h8 with h8 h8'
  refine ⟨s, h, e, hl, by rw [h1]; simp, rfl, h7, ?_, by rw [h2]; simp, h8'⟩
  rintro ⟨q, p1, p2, p3⟩
  have I := life_any hl
  obtain ⟨q2, g1, _, g3, _⟩ := (I.trk (blk 1 2) (by rw [h1]; simp) 1 rfl).req e (List.mem_of_find?_eq_some h7)
  rw [p1] at g1; injection g1 with g1; subst g1
  rw [g3] at p2
  apply p2
  show e.r ∈ (s.qs 1).served
  rw [h3, h8]; simp

/-- **C140, nothing undefined**: in every history of a client that follows the rules, no access is outside of the memory of a memory file or of the mapped file, whatever the
operating system answers. -/
theorem C140_defined {k : Queue.Kind} {qid : Nat → Nat} {cfgs : List (Nat × Bool)} {F : Nat → Dev} {s : St} {h : Hist}
    (hl : Life k qid cfgs F (fun _ _ => True) s h) : s.dead = false := (life_base hl).dead

/-- Not trivially so: an access behind the end of a memory file, or of a mapped file, is undefined. -/
example : (Dev.mem Files.Mem.init).serve slow true [1, 2] 0 2 = .dead ∧ (Dev.mmap 2 Files.emptyFile).serve slow false [1, 2] 0 2 = .dead ∧
    ((Dev.mem Files.Mem.init).discard 0 2 junk false).isNone := by
  refine ⟨rfl, rfl, rfl⟩

example : ∃ s h, Life .oneQ (fun _ => 0) [(8, false), (8, false)] kinds (fun _ _ => True) s h ∧ (s.qs 0).wpc = .serving 1 := by
  obtain ⟨s, h, hl, hp⟩ := witness (P := fun _ _ => True) _ (fun _ _ _ _ _ => trivial) kinds_opened bufs (opsB 0) (fun s h => okB 0 s h && endB [77, 77] s) okB_run
  simp only [okB, endB, Bool.and_eq_true, beq_iff_eq] at hp
  exact ⟨s, h, hl, hp.1.1.1.1.1⟩

/-- **C140**, what `C140_defined` excludes: once a transfer or a discard has been undefined, this is on record, and it stays so. -/
theorem C140_record {k : Queue.Kind} {qid : Nat → Nat} {s s' : St} {op : Op} (hs : step k qid s op = some s')
    (h : s.dead = true ∨
      (∃ i os r q, op = .run i .work os ∧ (s.qs i).wpc = .serving r ∧ s.reqs r = some q ∧ (s.files q.disk).serve os q.write (s.mem q.buf) q.off q.size = .dead) ∨
      (∃ b junk rm d m', op = .mgr (.delete b) junk rm ∧ b.storage = .managed d ∧ s.m.mgr.deleteBlock b = .ok m' ∧
        ((grown (Store.bytesOf s.m d) (Store.bytesOf (s.m.step (.delete b)) d) junk (s.files d)).discard b.off b.size junk rm).isNone)) : s'.dead = true := by
  have hq : ∀ {t t' : St} {i : Nat} {o : Queue.Op}, t.queue k i o = some t' → t'.dead = t.dead := by
    intro t t' i o ht
    unfold St.queue at ht
    split at ht
    · injection ht with ht; rw [← ht]
    · exact nomatch ht
  have hsv : ∀ r os, s.dead = true → (s.serve r os).dead = true := by
    intro r os hd
    unfold St.serve
    split
    · exact hd
    · split
      · exact hd
      · exact hd
      · rfl
  rcases h with hd | ⟨i, os, r, q, rfl, h1, h2, h3⟩ | ⟨b, junk, rm, d, m', rfl, h1, h2, h3⟩
  · cases op with
    | mgr op junk rm =>
      simp only [step, Option.some.injEq] at hs
      rw [← hs]
      unfold St.manage
      simp only
      split
      · exact hd
      · split
        · split
          · exact hd
          · rfl
        · exact hd
    | fill buf data => simp only [step, Option.some.injEq] at hs; rw [← hs]; exact hd
    | io r w b buf =>
      simp only [step] at hs
      split at hs
      · rw [hq hs]; exact hd
      · exact nomatch hs
    | cancel r =>
      simp only [step] at hs
      split at hs
      · rw [hq hs]; exact hd
      · exact nomatch hs
    | run i o os =>
      cases o with
      | signal => simp only [step] at hs; rw [hq hs]; exact hd
      | cancelTake => simp only [step] at hs; rw [hq hs]; exact hd
      | work =>
        simp only [step] at hs
        rw [hq hs]
        unfold St.transfer
        split
        · exact hsv _ _ hd
        · exact hd
      | _ => exact nomatch hs
  · simp only [step] at hs
    rw [hq hs]
    unfold St.transfer
    rw [h1]
    simp only [St.serve, h2, h3]
  · simp only [step, Option.some.injEq] at hs
    rw [← hs]
    unfold St.manage
    simp only [h1, h2]
    rw [Option.isNone_iff_eq_none] at h3
    rw [h3]

/-- A worker that serves a request for a memory file which has not got its size. -/
example : ∃ s : St, (s.qs 0).wpc = .serving 0 ∧ s.reqs 0 = some ⟨0, true, 0, 2, 0⟩ ∧ (s.files 0).serve slow true (s.mem 0) 0 2 = .dead ∧
    (step .oneQ (fun _ => 0) s (.run 0 .work slow)).map (·.dead) = some true :=
  ⟨{ m := ⟨⟨[], 0, 0, 0⟩, [], 0, 0⟩, files := fun _ => .mem Files.Mem.init, qs := fun _ => { Queue.init with wpc := .serving 0 },
     reqs := fun _ => some ⟨0, true, 0, 2, 0⟩, mem := fun _ => [1, 2], failed := [], dead := false }, rfl, rfl, rfl, rfl⟩

/-- **C140, no errors of its own**: the transfer of a request fails only if the operating system does, or, with `mmap`, if the offset of the block is not a multiple of the
page size. -/
theorem C140_errors {k : Queue.Kind} {qid : Nat → Nat} {cfgs : List (Nat × Bool)} {F : Nat → Dev} {s s' : St} {h : Hist} {i r : Nat} {q : Req} {os : Os}
    (hl : Life k qid cfgs F (fun _ _ => True) s h) (hw : (s.qs i).wpc = .serving r) (hq : s.reqs r = some q)
    (hs : step k qid s (.run i .work os) = some s') (hg : Fine os q.off q.size (s.files q.disk)) : r ∉ s'.failed := by
  have I := life_base hl
  obtain ⟨q1, g1, g2, g3⟩ := I.serving hw
  rw [hq] at g1; injection g1 with g1; subst g1
  simp only [step] at hs
  obtain ⟨q', h1, h2⟩ := DStore.queue_some hs
  have et : s.transfer i os = s.serve r os := by unfold St.transfer; rw [hw]
  rw [et] at h1 h2
  obtain ⟨d', b', hd⟩ := serve_fine (I.ok q.disk) q.write (I.rng r q hq).1 (I.rng r q hq).2 (I.buf r q g3 hq) hg
  rw [h2]
  show r ∉ (s.serve r os).failed
  unfold St.serve
  rw [hq]
  simp only [hd]
  intro hc
  obtain ⟨q2, p1, p2⟩ := I.fld r hc
  obtain ⟨q3, p3, p4, p5⟩ := g3
  rw [p1] at p3; injection p3 with p3; subst p3
  exact p4 p2

/-- Reads from files of all four kinds, from a system that transfers one byte at a time. -/
example : ∃ s h, Life .twoQ id [(8, false), (8, false), (8, false), (8, false)] kinds (Orderly .twoQ id) s h ∧ ∀ d, d < 4 →
    (s.qs d).wpc = .serving (4 + d) ∧ s.reqs (4 + d) = some ⟨d, false, 0, 2, 10 + d⟩ ∧ (step .twoQ id s (.run d .work slow)).isSome ∧ Files.Good slow.sys 2 := by
  obtain ⟨s, h, hl, hp⟩ := witness (P := Orderly .twoQ id) _ orderlyB_of kinds_opened bufs opsA okA okA_run
  refine ⟨s, h, hl, fun d hd => ?_⟩
  simp only [okA, List.all_eq_true] at hp
  have := hp d (List.mem_range.2 hd)
  simp only [Bool.and_eq_true, beq_iff_eq] at this
  obtain ⟨⟨⟨⟨h1, h2⟩, h3⟩, h4⟩, h5⟩ := this
  obtain ⟨s', h8, h9⟩ := Option.map_eq_some_iff.1 h5
  exact ⟨h1, h2, by rw [h8]; rfl, fun c _ => ⟨rfl, rfl, 1, rfl, by omega⟩⟩

/-- The condition for `mmap` is needed: a block at offset 2 and pages of 4 bytes. -/
example : (match (Dev.mmap 4 ⟨8, fun _ => 0⟩).serve slow false [1, 2] 2 2 with | .throws _ b => b == [1, 2] | _ => false) = true := by decide

/-- **C140, other blocks**: `new_blocks` and `delete_block` leave the content of every block alone that the client keeps. -/
theorem C140_keep {k : Queue.Kind} {qid : Nat → Nat} {cfgs : List (Nat × Bool)} {F : Nat → Dev} {s s' : St} {h : Hist} {op : Mgr.MOp} {jk : Nat → UInt8} {rm : Bool}
    (hl : Life k qid cfgs F (fun _ _ => True) s h) (ha : Allowed k qid s (.mgr op jk rm)) (hs : step k qid s (.mgr op jk rm) = some s')
    {b : Mgr.Bid} {d : Nat} (hb : b ∈ s.m.live) (hd : b.storage = .managed d) (hne : op ≠ .delete b) :
    (s'.files d).block b.off b.size = (s.files d).block b.off b.size ∧ s'.mem = s.mem ∧ s'.qs = s.qs ∧ s'.failed = s.failed ∧ s'.reqs = s.reqs := by
  have I := life_base hl
  have M := manage_managed I.mgr I.ok ha.1 jk rm
  simp only [step] at hs
  injection hs with hs
  rw [hs] at M
  obtain ⟨d', e1, e2, e3⟩ := Store.live_inside I.mgr hb
  rw [hd] at e1; injection e1 with e1; subst e1
  refine ⟨M.keep d b.off b.size e3 e2 (fun c hc hcd => ?_), M.mem, M.qs, M.failed, M.reqs⟩
  subst hc
  exact Store.live_apart I.mgr ha.1 hb (fun e => hne (by rw [e])) (by rw [hcd, hd])

example : ∃ s s', start [(8, false)] kinds bufs = some s ∧
    step .oneQ id s (.mgr (.new (fun _ => 0) 0 [⟨.null, 0, 2, 2⟩, ⟨.null, 0, 2, 2⟩]) junk false) = some s' ∧ s'.m.live = [blk 0 0, blk 0 2] ∧
    (step .oneQ id s' (.mgr (.delete (blk 0 0)) junk false)).map (fun t => ((t.files 0).block 0 4, t.m.live)) = some ([77, 77, 0, 0], [blk 0 2]) := by
  refine ⟨_, _, rfl, rfl, ?_, ?_⟩ <;> decide +kernel

/-- **C140, files of deleted blocks: false.**  With one file per block, a write that is pending when the block is deleted makes the file again; it stays although no block
exists any more and nothing is pending, and all rules (those of `C140_partial`, too) were followed. -/
theorem C140_gone_false : ∃ s h mode pre fs, Life .twoQ id [(8, false), (8, false)] kinds (Orderly .twoQ id) s h ∧ s.m.live = [] ∧ (∀ r, ¬ Pending id s r) ∧ s.failed = [] ∧
    kinds 1 = .fpb {} ['d'] noFiles ∧ s.files 1 = .fpb mode pre fs ∧ (fs (Files.filenameForBlock pre 0)).map (fun f => Files.pread f 0 f.size) = some [11, 12] := by
  obtain ⟨s, h, hl, hp⟩ := witness (P := Orderly .twoQ id) (fun s ids op => orderlyB .twoQ id s ids op) orderlyB_of kinds_opened bufs opsC
    (fun s h => okC s h && idle s) okC_run
  simp only [okC, idle, Bool.and_eq_true, beq_iff_eq] at hp
  obtain ⟨⟨⟨⟨h1, h2⟩, h3⟩, h4⟩, h5, h6⟩ := hp
  unfold fileAt at h4
  split at h4
  · rename_i mode pre fs hfs
    refine ⟨s, h, mode, pre, fs, hl, h1, ?_, h2, rfl, hfs, h4⟩
    rintro r ⟨q, p1, p2, p3⟩
    have I := life_inv hl
    have hin := I.req r q p1
    by_cases hd : q.disk = 1
    · rw [hd] at hin p2
      simp only [id] at hin p2
      rw [h6] at hin
      simp only [List.mem_singleton, Prod.mk.injEq] at hin
      exact p2 (by rw [h3, hin.1]; simp)
    · -- no request for another disk
      have h0 := I.rng r q p1
      have hd2 : q.disk = 0 ∨ 2 ≤ q.disk := by omega
      rcases hd2 with hd2 | hd2
      · rw [hd2] at hin; simp only [id] at hin; rw [h5] at hin; cases hin
      · have hlen : s.m.mgr.disks.length = 2 := by
          obtain ⟨_, hi⟩ := Mgr.mreach_inv I.mgr
          exact hi.len
        have : Store.bytesOf s.m q.disk = 0 := by
          unfold Store.bytesOf
          rw [List.getElem?_eq_none (by omega)]
        omega
  · cases h4

/-- **C140, files of deleted blocks**: if blocks are only deleted when nothing is pending for them and files can be removed, every file of a disk with one file per block is that
of a block the client has.  Missing: deletion with pending writes, which the rules permit. -/
theorem C140_gone_partial {k : Queue.Kind} {qid : Nat → Nat} {cfgs : List (Nat × Bool)} {F : Nat → Dev} {s : St} {h : Hist} {d : Nat} {mode : Files.Mode} {pre : List Char}
    {fs : Files.FS} (hl : Life k qid cfgs F (Clean qid) s h) (hd : F d = .fpb mode pre fs) (he : ∀ off, fs (Files.filenameForBlock pre off) = none) :
    ∃ fs', s.files d = .fpb mode pre fs' ∧ ∀ off, fs' (Files.filenameForBlock pre off) ≠ none → ∃ b ∈ s.m.live, b.storage = .managed d ∧ b.off = off := by
  obtain ⟨fs', h1, h2⟩ := (life_tidy hl hd he).fs
  refine ⟨fs', h1, fun off hn => ?_⟩
  cases hf : fs' (Files.filenameForBlock pre off) with
  | none => exact absurd hf hn
  | some f => exact h2 off f hf

/-- Two blocks with a file each, one of them deleted: one file remains. -/
example : ∃ s h, Life .twoQ id [(8, false), (8, false)] kinds (Clean id) s h ∧ kinds 1 = .fpb {} ['d'] noFiles ∧ s.m.live = [blk 1 2] ∧ (s.qs 1).served = [0, 1] ∧
    fileAt s 1 0 = none ∧ fileAt s 1 2 = some [21, 22] := by
  obtain ⟨s, h, hl, hp⟩ := witness (P := Clean id) (fun s ids op => orderlyB .twoQ id s ids op && cleanB id s ids op)
    (fun s ids op hi h => cleanB_of s ids op hi (by simp only [Bool.and_eq_true] at h; exact h.2)) kinds_opened bufs opsD okD okD_run
  simp only [okD, Bool.and_eq_true, beq_iff_eq] at hp
  obtain ⟨⟨⟨⟨⟨h1, h2⟩, h3⟩, h4⟩, h5⟩, h6⟩ := hp
  exact ⟨s, h, hl, rfl, h1, h3, h4, h5⟩

end Foxxll.DStore
