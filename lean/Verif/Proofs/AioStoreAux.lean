/-
Auxiliary lemmas for the theorems of `Verif.Props.AioStore`.
-/
import Verif.Proofs.AioStoreRun

namespace Foxxll.AioStore
open Foxxll
open Foxxll.Store (Req Wrote Hist upd)

/-- A block of 2 bytes. -/
def blk (d o : Nat) : Mgr.Bid := ⟨.managed d, o, 2, 2⟩

/-- Buffers 1 and 2 hold data, the others zeros. -/
def bufs : Nat → List UInt8 := fun b => if b = 1 then [11, 12] else if b = 2 then [21, 22] else [0, 0]

/-- A request is made and handed to the kernel. -/
def sub (r : Nat) (w : Bool) (b : Mgr.Bid) (buf : Nat) (i : Nat) : List Op :=
  [.io r w b buf, .run i .addSig] ++ List.replicate 5 (.run i (.post {})) ++ [.run i (.post { k := 1 }), .run i (.post {})]

/-- The kernel transfers both bytes. -/
def both (i r : Nat) : List Op := [.kernel i r 1, .kernel i r 0]

/-- The waiting thread takes over the completed request `r` up to the call of `completed`. -/
def take (i r : Nat) (bad : List Nat) : List Op :=
  [.run i (.wait {}), .run i (.wait {}), .run i (.wait { evs := [r], bad := bad }), .run i (.wait {}), .run i (.wait {})]

def comp (i : Nat) : List Op := [.run i (.wait {}), .run i (.wait {}), .run i (.wait {})]

/-- Two blocks, on two disks with one queue each. -/
def new2 : Op := .mgr (.new (fun i => i % 2) 0 [⟨.null, 0, 2, 2⟩, ⟨.null, 0, 2, 2⟩])

/-- The client waits; the kernel confirms no cancellation. -/
def goodB (s : St) (ids : List Nat) (op : Op) : Bool := waitsB id s ids op && noConfirmB op

theorem goodB_of (s : St) (ids : List Nat) (op : Op) (hi : ∀ r, s.reqs r ≠ none → r ∈ ids) (h : goodB s ids op = true) :
    Waits id s op ∧ NoConfirm op := by
  simp only [goodB, Bool.and_eq_true] at h
  exact ⟨waitsB_of hi h.1, noConfirmB_of h.2⟩

/-- Writes of two blocks, a second write of the first one canceled while it waits, then reads of both; the read `3` is about to complete. -/
def opsA : List Op :=
  [new2] ++ sub 0 true (blk 0 0) 1 0 ++ sub 1 true (blk 1 0) 2 1 ++ both 0 0 ++ [.kernel 1 1 0] ++ take 0 0 [] ++ comp 0 ++
    [.io 2 true (blk 0 0) 2, .run 0 .addSig, .cancel 2 false, .run 0 (.cancelComp 2), .run 0 .cancelDone] ++
    sub 3 false (blk 0 0) 7 0 ++ both 0 3 ++ take 0 3 []

def okA (s : St) (h : Hist) : Bool :=
  pendingB id s 3 && s.reqs 3 == some ⟨0, false, 0, 2, 7⟩ &&
    ((Store.last (canceled (s.qs 0)) (h.seen 3)).map (fun e => (e.r, e.data))) == some (0, [11, 12]) && (s.qs 0).kerr == [] &&
    (step id s (.run 0 (.wait {}))).map (fun s' => ((s'.qs 0).comp, (s'.qs 0).kerr, s'.mem 7)) == some ([(0, true), (2, false), (3, true)], [], [11, 12])

theorem okA_run : ((start [(8, false), (8, false)] bufs).bind fun s => (runB id goodB s ⟨[], fun _ => []⟩ [] opsA).map fun x => okA x.1 x.2) = some true := by
  decide +kernel

/-- The kernel reports an error for the write of a block; afterwards the block is read. -/
def opsB : List Op :=
  [new2] ++ sub 0 true (blk 0 0) 1 0 ++ take 0 0 [0] ++ comp 0 ++ sub 3 false (blk 0 0) 7 0 ++ both 0 3 ++ take 0 3 []

def okB (s : St) (h : Hist) : Bool :=
  pendingB id s 3 && s.reqs 3 == some ⟨0, false, 0, 2, 7⟩ &&
    ((Store.last (canceled (s.qs 0)) (h.seen 3)).map (fun e => (e.r, e.data))) == some (0, [11, 12]) && (s.qs 0).comp == [(0, true)] &&
    (step id s (.run 0 (.wait {}))).map (fun s' => ((s'.qs 0).comp, (s'.qs 0).kerr, s'.mem 7)) == some ([(0, true), (3, true)], [0], [0, 0])

theorem okB_run : ((start [(8, false), (8, false)] bufs).bind fun s => (runB id goodB s ⟨[], fun _ => []⟩ [] opsB).map fun x => okB x.1 x.2) = some true := by
  decide +kernel

/-- What `write_pool::write` does with a block that is being written: the pending write is canceled, in vain; the block is
written again, and the kernel transfers the data of the second write first. -/
def opsC : List Op :=
  [new2] ++ sub 0 true (blk 0 0) 1 0 ++ [.cancel 0 false] ++ sub 1 true (blk 0 0) 2 0 ++ both 0 1 ++ both 0 0 ++ take 0 0 [] ++ comp 0 ++ take 0 1 [] ++ comp 0

def okC (s : St) (h : Hist) : Bool :=
  s.m.live == [blk 0 0, blk 1 0] && (s.qs 0).comp == [(0, true), (1, true)] && (s.qs 0).kerr == [] &&
    ((Store.last (canceled (s.qs 0)) (h.of (blk 0 0))).map (fun e => (e.r, e.data))) == some (1, [21, 22]) &&
    Files.pread (s.files 0) 0 2 == [11, 12]

theorem okC_run : ((start [(8, false), (8, false)] bufs).bind fun s => (runB id (fun _ _ op => noConfirmB op) s ⟨[], fun _ => []⟩ [] opsC).map
    fun x => okC x.1 x.2) = some true := by decide +kernel

/-- A block is written and read while the write is pending. -/
def opsD : List Op :=
  [new2] ++ sub 0 true (blk 0 0) 1 0 ++ sub 3 false (blk 0 0) 7 0 ++ both 0 3 ++ both 0 0 ++ take 0 0 [] ++ comp 0 ++ take 0 3 []

def okD (s : St) (h : Hist) : Bool :=
  pendingB id s 3 && s.reqs 3 == some ⟨0, false, 0, 2, 7⟩ && (s.qs 0).comp == [(0, true)] &&
    ((Store.last (canceled (s.qs 0)) (h.seen 3)).map (fun e => (e.r, e.data))) == some (0, [11, 12]) &&
    (step id s (.run 0 (.wait {}))).map (fun s' => ((s'.qs 0).comp, (s'.qs 0).kerr, s'.mem 7)) == some ([(0, true), (3, true)], [], [0, 0])

theorem okD_run : ((start [(8, false), (8, false)] bufs).bind fun s => (runB id (fun _ _ op => noConfirmB op) s ⟨[], fun _ => []⟩ [] opsD).map
    fun x => okD x.1 x.2) = some true := by decide +kernel

theorem pending_of {s : St} {r : Nat} {q : Req} (h : pendingB id s r = true) (hq : s.reqs r = some q) : Pending id s r := by
  refine ⟨q, hq, ?_⟩
  simpa [pendingB, hq] using h

theorem queue_keep {s s' : St} {i : Nat} {op : Aio.Op} (h : s.queue i op = some s') : s'.m = s.m ∧ s'.files = s.files := by
  unfold St.queue at h
  split at h
  · cases h; exact ⟨rfl, rfl⟩
  · cases h

/-- The size of the files in one step. -/
theorem size_step {qid : Nat → Nat} {s s' : St} {op : Op} (hs : step qid s op = some s') (hz : ∀ d, Store.bytesOf s.m d ≤ (s.files d).size) :
    ∀ d, Store.bytesOf s'.m d ≤ (s'.files d).size := by
  intro d
  cases op with
  | mgr op =>
    simp only [step, Option.some.injEq] at hs
    subst hs
    exact Store.grown_size (hz d) (Store.bytesOf_step _ _ _)
  | fill buf data => simp only [step, Option.some.injEq] at hs; subst hs; exact hz d
  | io r w b buf =>
    simp only [step] at hs
    split at hs
    · obtain ⟨e1, e2⟩ := queue_keep hs
      rw [e1, e2]; exact hz d
    · cases hs
  | cancel r ok =>
    simp only [step] at hs
    split at hs
    · split at hs <;>
      · obtain ⟨e1, e2⟩ := queue_keep hs
        rw [e1, e2]; exact hz d
    · cases hs
  | kernel i r j =>
    simp only [step] at hs
    split at hs
    · split at hs
      · cases hs
        unfold St.byte
        split
        · rename_i q _ _ _
          simp only
          by_cases e : d = q.disk
          · subst e
            rw [Store.upd_same]
            have := hz q.disk
            simp only
            omega
          · rw [Store.upd_other _ _ e]; exact hz d
        · exact hz d
      · cases hs
    · cases hs
  | run i op =>
    cases op <;> simp only [step] at hs <;> first
      | cases hs
      | (split at hs
         · obtain ⟨e1, e2⟩ := queue_keep hs
           rw [e1, e2]; exact hz d
         · cases hs)
      | (obtain ⟨e1, e2⟩ := queue_keep hs
         rw [e1, e2]; exact hz d)

theorem life_size {qid : Nat → Nat} {cfgs : List (Nat × Bool)} {P : St → Op → Prop} {s : St} {h : Hist} (hl : Life qid cfgs P s h) :
    ∀ d, Store.bytesOf s.m d ≤ (s.files d).size := by
  induction hl with
  | start _ _ => intro d; exact Store.grown_size (Nat.zero_le _) (Nat.zero_le _)
  | next op _ _ _ hs ih => exact size_step hs ih

theorem mgr_step {qid : Nat → Nat} {cfgs : List (Nat × Bool)} {s s' : St} {op : Op} (hm : Mgr.MReach cfgs s.m) (ha : Allowed qid s op)
    (hs : step qid s op = some s') : Mgr.MReach cfgs s'.m := by
  cases op with
  | mgr op =>
    simp only [step, Option.some.injEq] at hs
    subst hs
    exact .step hm ha
  | fill buf data => simp only [step, Option.some.injEq] at hs; subst hs; exact hm
  | io r w b buf =>
    simp only [step] at hs
    split at hs
    · rw [(queue_keep hs).1]; exact hm
    · cases hs
  | cancel r ok =>
    simp only [step] at hs
    split at hs
    · split at hs <;> (rw [(queue_keep hs).1]; exact hm)
    · cases hs
  | kernel i r j =>
    simp only [step] at hs
    split at hs
    · split at hs
      · cases hs
        unfold St.byte
        split <;> exact hm
      · cases hs
    · cases hs
  | run i op =>
    cases op <;> simp only [step] at hs <;> first
      | cases hs
      | (split at hs
         · rw [(queue_keep hs).1]; exact hm
         · cases hs)
      | (rw [(queue_keep hs).1]; exact hm)

theorem kernel_pending {qid : Nat → Nat} {cfgs : List (Nat × Bool)} {s : St} {h : Hist} (I : Inv qid cfgs s h) {i r : Nat} {q : Req} (hq : s.reqs r = some q)
    (hi : r ∈ (s.qs i).infl) : Pending qid s r := by
  obtain ⟨q0, e0, e1⟩ := I.sub i r (infl_sub (I.que i) hi)
  rw [hq] at e0; injection e0 with e0; subst e0; subst e1
  obtain ⟨_, _, hnc⟩ := Aio.infl_only (I.que _) hi
  exact ⟨q, hq, hnc⟩

end Foxxll.AioStore
