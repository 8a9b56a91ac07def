/-
Property C125: what is written to a block of a disk of type linuxaio is what is read from it; the block manager, the linuxaio
queues, the kernel and the files together.
-/
import Verif.Proofs.AioStoreRun
import Verif.Proofs.AioStoreAux

namespace Foxxll.AioStore
open Foxxll
open Foxxll.Store (Req Wrote Hist upd)

/-! ### C125 -/

/-- **C125 is false**: the kernel reports an error for the write of a block, the request is completed as a success; a
read, made after the completion, completes as a success as well and delivers the old content of the disk. -/
theorem C125_false : ∃ s s' h q e, Life id [(8, false), (8, false)] (fun s op => Waits id s op ∧ NoConfirm op) s h ∧ s.reqs 3 = some q ∧ q.write = false ∧
    step id s (.run 0 (.wait {})) = some s' ∧ (s'.qs 0).comp = [(0, true), (3, true)] ∧ 3 ∉ (s'.qs 0).kerr ∧
    Store.last (canceled (s.qs 0)) (h.seen 3) = some e ∧ e.r = 0 ∧ e.data = [11, 12] ∧ s'.mem q.buf = [0, 0] := by
  obtain ⟨s, h, hl, hp⟩ := witness (P := fun s op => Waits id s op ∧ NoConfirm op) goodB goodB_of bufs opsB okB okB_run
  simp only [okB, Bool.and_eq_true, beq_iff_eq] at hp
  obtain ⟨⟨⟨⟨h1, h2⟩, h3⟩, h4⟩, h5⟩ := hp
  obtain ⟨e, h6, h7⟩ := Option.map_eq_some_iff.1 h3
  obtain ⟨s', h8, h9⟩ := Option.map_eq_some_iff.1 h5
  simp only [Prod.mk.injEq] at h7 h9
  exact ⟨s, s', h, _, e, hl, h2, rfl, h8, h9.1, by rw [h9.2.1]; decide, h6, h7.1, h7.2, h9.2.2⟩

/-- **C125 is false, order of writes**: of two writes of a block, both completed as a success without error of the kernel, the
data of the first one remain in the file.  This is what `write_pool::write` does if the cancellation of the pending write comes too late. -/
theorem C125_order_false : ∃ s h e, Life id [(8, false), (8, false)] (fun _ op => NoConfirm op) s h ∧ blk 0 0 ∈ s.m.live ∧ (s.qs 0).comp = [(0, true), (1, true)] ∧
    (s.qs 0).kerr = [] ∧ Store.last (canceled (s.qs 0)) (h.of (blk 0 0)) = some e ∧ e.r = 1 ∧ e.data = [21, 22] ∧ Files.pread (s.files 0) 0 2 = [11, 12] := by
  obtain ⟨s, h, hl, hp⟩ := witness (P := fun _ op => NoConfirm op) (fun _ _ op => noConfirmB op) (fun _ _ _ _ h => noConfirmB_of h) bufs opsC okC okC_run
  simp only [okC, Bool.and_eq_true, beq_iff_eq] at hp
  obtain ⟨⟨⟨⟨h1, h2⟩, h3⟩, h4⟩, h5⟩ := hp
  obtain ⟨e, h6, h7⟩ := Option.map_eq_some_iff.1 h4
  simp only [Prod.mk.injEq] at h7
  exact ⟨s, h, e, hl, by rw [h1]; simp, h2, h3, h6, h7.1, h7.2, h5⟩

/-- **C125 is false, reads of blocks being written**: a read made after a write of the same block delivers the old content, although both succeed. -/
theorem C125_overtake_false : ∃ s s' h q e, Life id [(8, false), (8, false)] (fun _ op => NoConfirm op) s h ∧ s.reqs 3 = some q ∧ q.write = false ∧
    step id s (.run 0 (.wait {})) = some s' ∧ (s'.qs 0).comp = [(0, true), (3, true)] ∧ (s'.qs 0).kerr = [] ∧
    Store.last (canceled (s.qs 0)) (h.seen 3) = some e ∧ e.r = 0 ∧ e.data = [11, 12] ∧ s'.mem q.buf = [0, 0] := by
  obtain ⟨s, h, hl, hp⟩ := witness (P := fun _ op => NoConfirm op) (fun _ _ op => noConfirmB op) (fun _ _ _ _ h => noConfirmB_of h) bufs opsD okD okD_run
  simp only [okD, Bool.and_eq_true, beq_iff_eq] at hp
  obtain ⟨⟨⟨⟨h1, h2⟩, h3⟩, h4⟩, h5⟩ := hp
  obtain ⟨e, h6, h7⟩ := Option.map_eq_some_iff.1 h4
  obtain ⟨s', h8, h9⟩ := Option.map_eq_some_iff.1 h5
  simp only [Prod.mk.injEq] at h7 h9
  exact ⟨s, s', h, _, e, hl, h2, rfl, h8, h9.1, h9.2.1, h6, h7.1, h7.2, h9.2.2⟩

/-- **C125, reads**: a read of a block that completes as a success returns the data of the last write of the
block before it that was not canceled, if there is one since the allocation of the block, for any number of disks and queues and any
interleaving of clients, threads and kernel, if the client waits for conflicting requests (`Waits`), the kernel reports neither for the read nor for the write an error or
a short transfer, and it confirms no cancellations.  Missing for C125: the kernel's errors (`C125_false`), conflicting requests pending at the same time
(`C125_order_false`, `C125_overtake_false`), confirmed cancellations (C32). -/
theorem C125_partial {qid : Nat → Nat} {cfgs : List (Nat × Bool)} {s s' : St} {h : Hist} {op : Op} {r : Nat} {q : Req} {e : Wrote}
    (hl : Life qid cfgs (fun s op => Waits qid s op ∧ NoConfirm op) s h) (ha : Allowed qid s op) (hw : Waits qid s op) (hn : NoConfirm op)
    (hs : step qid s op = some s') (hp : Pending qid s r) (hq : s.reqs r = some q) (hr : q.write = false)
    (hc : (r, true) ∈ (s'.qs (qid q.disk)).comp) (hk : r ∉ (s'.qs (qid q.disk)).kerr)
    (he : Store.last (canceled (s.qs (qid q.disk))) (h.seen r) = some e) (hke : e.r ∉ (s.qs (qid q.disk)).kerr) : s'.mem q.buf = e.data :=
  (life_inv hl).read ha hw hn hs hp hq hr hc hk he hke

example : ∃ s s' h q e, Life id [(8, false), (8, false)] (fun s op => Waits id s op ∧ NoConfirm op) s h ∧ Allowed id s (.run 0 (.wait {})) ∧
    Waits id s (.run 0 (.wait {})) ∧ NoConfirm (.run 0 (.wait {})) ∧ step id s (.run 0 (.wait {})) = some s' ∧ Pending id s 3 ∧ s.reqs 3 = some q ∧ q.write = false ∧
    (3, true) ∈ (s'.qs (id q.disk)).comp ∧ 3 ∉ (s'.qs (id q.disk)).kerr ∧ Store.last (canceled (s.qs (id q.disk))) (h.seen 3) = some e ∧
    e.r ∉ (s.qs (id q.disk)).kerr ∧ e.data = [11, 12] := by
  obtain ⟨s, h, hl, hp⟩ := witness (P := fun s op => Waits id s op ∧ NoConfirm op) goodB goodB_of bufs opsA okA okA_run
  simp only [okA, Bool.and_eq_true, beq_iff_eq] at hp
  obtain ⟨⟨⟨⟨h1, h2⟩, h3⟩, h4⟩, h5⟩ := hp
  obtain ⟨e, h6, h7⟩ := Option.map_eq_some_iff.1 h3
  obtain ⟨s', h8, h9⟩ := Option.map_eq_some_iff.1 h5
  simp only [Prod.mk.injEq] at h7 h9
  exact ⟨s, s', h, _, e, hl, trivial, trivial, trivial, h8, pending_of h1 h2, h2, rfl, by simp [h9.1], by simp [h9.2.1], h6, by simp [h4], h7.2⟩

/-- **C125, files**: at any time the file holds, at the place of a block, the data of the last write of the
block that was not canceled, if that write is completed and the kernel reported no error for it. -/
theorem C125_file_partial {qid : Nat → Nat} {cfgs : List (Nat × Bool)} {s : St} {h : Hist} {b : Mgr.Bid} {d : Nat} {e : Wrote}
    (hl : Life qid cfgs (fun s op => Waits qid s op ∧ NoConfirm op) s h) (hb : b ∈ s.m.live) (hd : b.storage = .managed d)
    (he : Store.last (canceled (s.qs (qid d))) (h.of b) = some e) (hc : (e.r, true) ∈ (s.qs (qid d)).comp) (hk : e.r ∉ (s.qs (qid d)).kerr) :
    ∀ j, j < b.size → (s.files d).byte (b.off + j) = e.data.getD j 0 :=
  (life_inv hl).file hb hd he hc hk

example : ∃ s h e, Life id [(8, false), (8, false)] (fun s op => Waits id s op ∧ NoConfirm op) s h ∧ blk 0 0 ∈ s.m.live ∧ (blk 0 0).storage = .managed 0 ∧
    Store.last (canceled (s.qs 0)) (h.of (blk 0 0)) = some e ∧ (e.r, true) ∈ (s.qs 0).comp ∧ e.r ∉ (s.qs 0).kerr ∧ e.data = [11, 12] := by
  obtain ⟨s, h, hl, hp⟩ := witness (qid := id) (cfgs := [(8, false), (8, false)]) (P := fun s op => Waits id s op ∧ NoConfirm op) goodB goodB_of bufs opsA
    (fun s h => s.m.live == [blk 0 0, blk 1 0] && (s.qs 0).comp == [(0, true), (2, false)] && (s.qs 0).kerr == [] &&
      ((Store.last (canceled (s.qs 0)) (h.of (blk 0 0))).map (fun e => (e.r, e.data))) == some (0, [11, 12])) (by decide +kernel)
  simp only [Bool.and_eq_true, beq_iff_eq] at hp
  obtain ⟨⟨⟨h1, h2⟩, h3⟩, h4⟩ := hp
  obtain ⟨e, h6, h7⟩ := Option.map_eq_some_iff.1 h4
  simp only [Prod.mk.injEq] at h7
  exact ⟨s, h, e, hl, by rw [h1]; simp, rfl, h6, by simp [h2, h7.1], by simp [h3], h7.2⟩

/-- **C125, sizes of the files**: in every history the file is large enough for all blocks of its disk … -/
theorem C125_size {qid : Nat → Nat} {cfgs : List (Nat × Bool)} {P : St → Op → Prop} {s : St} {h : Hist} (hl : Life qid cfgs P s h)
    {b : Mgr.Bid} {d : Nat} (hb : b ∈ s.m.live) (hd : b.storage = .managed d) : b.off + b.size ≤ (s.files d).size := by
  have hm : Mgr.MReach cfgs s.m := by
    clear hb hd
    induction hl with
    | start hm _ => exact .init hm
    | @next s s' h op _ ha _ hs ih => exact mgr_step ih ha hs
  obtain ⟨d', h1, _, h2⟩ := Store.live_inside hm hb
  rw [hd] at h1
  cases h1
  exact Nat.le_trans h2 (life_size hl d)

/-- … and no transfer changes its size (for clients that do not delete blocks with pending requests). -/
theorem C125_size_kernel_partial {qid : Nat → Nat} {cfgs : List (Nat × Bool)} {s s' : St} {h : Hist} {i r j : Nat}
    (hl : Life qid cfgs (fun s op => Waits qid s op ∧ NoConfirm op) s h) (hs : step qid s (.kernel i r j) = some s') (d : Nat) :
    (s'.files d).size = (s.files d).size := by
  have I := life_inv hl
  simp only [step] at hs
  split at hs
  · rename_i q hq
    split at hs
    · rename_i hc
      cases hs
      unfold St.byte
      split
      · simp only
        by_cases e : d = q.disk
        · subst e
          rw [Store.upd_same]
          have hp : Pending qid s r := kernel_pending I hq hc.1
          obtain ⟨b, hb, hon⟩ := I.on r q hp hq
          have := C125_size hl hb hon.1
          have h2 := hon.2.1
          have h3 := hon.2.2
          simp only
          have := hc.2
          omega
        · rw [Store.upd_other _ _ e]
      · rfl
    · cases hs
  · cases hs

/-- A block on a disk of 8 bytes, of which the kernel transfers the second byte. -/
example : ∃ s s' h, Life id [(8, false), (8, false)] (fun s op => Waits id s op ∧ NoConfirm op) s h ∧ blk 0 0 ∈ s.m.live ∧
    step id s (.kernel 0 0 1) = some s' ∧ (s'.files 0).size = 8 ∧ (s'.files 0).byte 1 = 12 := by
  obtain ⟨s, h, hl, hp⟩ := witness (qid := id) (cfgs := [(8, false), (8, false)]) (P := fun s op => Waits id s op ∧ NoConfirm op) goodB goodB_of bufs
    ([new2] ++ sub 0 true (blk 0 0) 1 0)
    (fun s _ => s.m.live == [blk 0 0, blk 1 0] && (step id s (.kernel 0 0 1)).map (fun s' => ((s'.files 0).size, (s'.files 0).byte 1)) == some (8, 12)) (by decide +kernel)
  simp only [Bool.and_eq_true, beq_iff_eq] at hp
  obtain ⟨h1, h2⟩ := hp
  obtain ⟨s', h3, h4⟩ := Option.map_eq_some_iff.1 h2
  simp only [Prod.mk.injEq] at h4
  exact ⟨s, s', h, hl, by rw [h1]; simp, h3, h4.1, h4.2⟩

end Foxxll.AioStore
