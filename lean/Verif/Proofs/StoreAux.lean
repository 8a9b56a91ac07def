/-
Auxiliary lemmas for the theorems of `Verif.Props.Store`.
-/
import Verif.Proofs.StoreRun
import Verif.Proofs.StoreLater
import Verif.Props.Queues

namespace Foxxll.Store
open Foxxll

/-- A block of 2 bytes on a disk of 8 bytes. -/
def blk (d o : Nat) : Mgr.Bid := ⟨.managed d, o, 2, 2⟩

/-- The system transfers one byte at a time. -/
def slow : Nat → Files.Sys := fun _ => { rc := some 1 }

/-- Worker steps. -/
def works (i n : Nat) : List Op := List.replicate n (.run i .work slow)

def sub (r : Nat) (w : Bool) (b : Mgr.Bid) (buf : Nat) (i : Nat) : List Op := [.io r w b buf, .run i .signal slow]

/-- Buffers 1 and 2 hold data, the others zeros. -/
def bufs : Nat → List UInt8 := fun b => if b = 1 then [11, 12] else if b = 2 then [21, 22] else [0, 0]

/-- Two disks with one queue each; blocks on both of them. -/
def opsA : List Op :=
  [.mgr (.new (fun i => i % 2) 0 [⟨.null, 0, 2, 2⟩, ⟨.null, 0, 2, 2⟩, ⟨.null, 0, 2, 2⟩])] ++
    sub 0 true (blk 0 0) 1 0 ++ sub 1 true (blk 0 2) 2 0 ++ sub 2 true (blk 1 0) 2 1 ++ sub 3 false (blk 0 0) 7 0 ++ works 0 14

/-- The read `3` is being served. -/
def okA (s : St) (h : Hist) : Bool :=
  (s.qs 0).wpc == .serving 3 && s.reqs 3 == some ⟨0, false, 0, 2, 7⟩ && s.failed == [] &&
    ((last (s.qs 0).cancelled (h.seen 3)).map (fun e => (e.r, e.data))) == some (0, [11, 12]) &&
    (step .twoQ id s (.run 0 .work slow)).map (fun s' => (s'.failed, s'.mem 7)) == some ([], [11, 12])

theorem okA_run : ((start [(8, false), (8, false)] bufs).bind fun s => (runB .twoQ id (fun op => match op with | .cancel _ => false | _ => true) s
    ⟨[], fun _ => []⟩ [] opsA).map fun x => okA x.1 x.2) = some true := by decide +kernel

/-- One queue; a later write of the same block is canceled, the block of a pending read is written again. -/
def opsB : List Op :=
  [.mgr (.new (fun _ => 0) 0 [⟨.null, 0, 2, 2⟩])] ++ sub 0 true (blk 0 0) 1 0 ++ sub 1 true (blk 0 0) 2 0 ++ sub 2 false (blk 0 0) 7 0 ++
    sub 3 true (blk 0 0) 2 0 ++ [.cancel 1, .run 0 .cancelTake slow] ++ works 0 6

def okB (s : St) (h : Hist) : Bool :=
  (s.qs 0).wpc == .serving 2 && s.reqs 2 == some ⟨0, false, 0, 2, 7⟩ && s.failed == [] && (s.qs 0).cancelled == [1] &&
    ((last (s.qs 0).cancelled (h.seen 2)).map (fun e => (e.r, e.data))) == some (0, [11, 12]) &&
    (step .oneQ id s (.run 0 .work slow)).map (fun s' => (s'.failed, s'.mem 7)) == some ([], [11, 12])

theorem okB_run : ((start [(8, false)] bufs).bind fun s => (runB .oneQ id (fun _ => true) s ⟨[], fun _ => []⟩ [] opsB).map
    fun x => okB x.1 x.2) = some true := by decide +kernel

/-- A write, deletion of the block while the write is pending, allocation at the same place, a write of the new block. -/
def opsC : List Op :=
  [.mgr (.new (fun _ => 0) 0 [⟨.null, 0, 2, 2⟩])] ++ sub 0 true (blk 0 0) 1 0 ++ [.mgr (.delete (blk 0 0))] ++
    [.mgr (.new (fun _ => 0) 0 [⟨.null, 0, 2, 2⟩])] ++ sub 1 true (blk 0 0) 2 0 ++ works 0 8

def okC (s : St) (h : Hist) : Bool :=
  s.m.live == [blk 0 0] && s.failed == [] && (s.qs 0).served == [0, 1] &&
    ((last (s.qs 0).cancelled (h.of (blk 0 0))).map (fun e => (e.r, e.data))) == some (1, [21, 22]) &&
    Files.pread (s.files 0) 0 2 == [21, 22]

theorem okC_run : ((start [(2, true)] bufs).bind fun s => (runB .twoQ id (fun op => match op with | .cancel _ => false | _ => true) s
    ⟨[], fun _ => []⟩ [] opsC).map fun x => okC x.1 x.2) = some true := by decide +kernel

/-- The history of `C23_false` with data. -/
def opsD : List Op :=
  [.mgr (.new (fun _ => 0) 0 [⟨.null, 0, 2, 2⟩, ⟨.null, 0, 2, 2⟩])] ++ sub 0 false (blk 0 2) 8 0 ++ works 0 1 ++ [.cancel 0] ++ works 0 3 ++
    [.run 0 .cancelTake slow] ++ sub 1 true (blk 0 0) 1 0 ++ sub 2 false (blk 0 0) 7 0 ++ works 0 2

def okD (s : St) (h : Hist) : Bool :=
  (s.qs 0).wpc == .serving 2 && s.reqs 2 == some ⟨0, false, 0, 2, 7⟩ && s.failed == [] &&
    ((last (s.qs 0).cancelled (h.seen 2)).map (fun e => (e.r, e.data))) == some (1, [11, 12]) &&
    (step .twoQ id s (.run 0 .work slow)).map (fun s' => (s'.failed, s'.mem 7)) == some ([], [0, 0])

theorem okD_run : ((start [(8, false)] bufs).bind fun s => (runB .twoQ id (fun _ => true) s ⟨[], fun _ => []⟩ [] opsD).map
    fun x => okD x.1 x.2) = some true := by decide +kernel

theorem orderly_of {op : Op} (h : (match op with | .cancel _ => false | _ => true) = true) : Orderly .twoQ op := by
  intro _ r e; subst e; cases h

/-- A read submitted second, canceled while the first is served. -/
def opsE : List Op :=
  [.mgr (.new (fun _ => 0) 0 [⟨.null, 0, 2, 2⟩])] ++ sub 0 true (blk 0 0) 1 1 ++ sub 1 false (blk 0 0) 7 1 ++ works 1 2

def okE (s : St) (_ : Hist) : Bool :=
  s.reqs 0 == some ⟨0, true, 0, 2, 1⟩ && s.reqs 1 == some ⟨0, false, 0, 2, 7⟩ && (s.qs 1).started == [0] && (step .oneQ (· + 1) s (.cancel 1)).isSome &&
    (step .oneQ (· + 1) s (.cancel 0)).isSome

theorem okE_run : ((start [(8, false)] bufs).bind fun s => (runB .oneQ (· + 1) (fun _ => true) s ⟨[], fun _ => []⟩ [] opsE).map
    fun x => okE x.1 x.2) = some true := by decide +kernel

/-- A canceled read of another block, a write that is served, a canceled write. -/
def opsF : List Op :=
  [.mgr (.new (fun _ => 0) 0 [⟨.null, 0, 2, 2⟩, ⟨.null, 0, 2, 2⟩])] ++ sub 0 false (blk 0 2) 8 0 ++ works 0 1 ++ [.cancel 0] ++ works 0 3 ++
    [.run 0 .cancelTake slow] ++ sub 1 true (blk 0 0) 1 0 ++ works 0 8 ++ sub 3 true (blk 0 0) 2 0 ++ [.cancel 3, .run 0 .cancelTake slow]

/-- No write of the block is pending. -/
def okF0 (s : St) (h : Hist) : Bool :=
  allPending id s (idsAfter [] opsF) (fun q => !(q.write && onB q (blk 0 0))) && (s.qs 0).cancelled == [0, 3] &&
    ((last (s.qs 0).cancelled (h.of (blk 0 0))).map (fun e => (e.r, e.data))) == some (1, [11, 12])

def okF (s : St) (_ : Hist) : Bool :=
  (s.qs 0).wpc == .serving 2 && s.failed == [] && (step .twoQ id s (.run 0 .work slow)).map (fun s' => s'.failed) == some []

theorem okF_run : ((start [(8, false)] bufs).bind fun s => run2 .twoQ id (fun _ => true) opsF (.io 2 false (blk 0 0) 7) ([.run 0 .signal slow] ++ works 0 6) okF0 okF s) =
    some true := by decide +kernel

end Foxxll.Store
