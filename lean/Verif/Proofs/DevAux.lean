import Verif.Proofs.DevRun
import Verif.Proofs.DevLater
/-
Histories on disks with files of all kinds, for the examples in `Verif.Props.DevStore`.
-/
namespace Foxxll.DStore
open Foxxll
open Foxxll.Store (Req Wrote Hist last blk bufs onB onB_of)

/-- The system transfers one byte at a time. -/
def slow : Os := { sys := fun _ => { rc := some 1 } }

/-- No files. -/
def noFiles : Files.FS := fun _ => none

/-- Files of all kinds. -/
def kinds : Nat → Dev := fun d =>
  if d % 4 = 0 then .mem Files.Mem.init
  else if d % 4 = 1 then .fpb {} ['d'] noFiles
  else if d % 4 = 2 then .sys Files.emptyFile
  else .mmap 2 Files.emptyFile

theorem kinds_opened (d : Nat) : (kinds d).Opened := by
  unfold kinds
  split
  · rfl
  · split
    · exact ⟨rfl, rfl, rfl, fun n f h => by cases h⟩
    · split
      · exact fun _ _ => rfl
      · exact ⟨by decide, fun _ _ => rfl⟩

/-- Worker steps. -/
def works (i n : Nat) : List Op := List.replicate n (.run i .work slow)

def sub (r : Nat) (w : Bool) (b : Mgr.Bid) (buf : Nat) (i : Nat) : List Op := [.io r w b buf, .run i .signal slow]

/-- What a discarded region contains. -/
def junk : Nat → UInt8 := fun _ => 77

/-- Orderly, decided. -/
def orderlyB (k : Queue.Kind) (qid : Nat → Nat) (s : St) (ids : List Nat) : Op → Bool
  | .cancel _ => k == .oneQ
  | .mgr (.delete b) _ _ => allPending qid s ids (fun q => q.write || !onB q b)
  | _ => true

theorem orderlyB_of {k : Queue.Kind} {qid : Nat → Nat} (s : St) (ids : List Nat) (op : Op) (hi : ∀ r, s.reqs r ≠ none → r ∈ ids)
    (h : orderlyB k qid s ids op = true) : Orderly k qid s op := by
  constructor
  · intro hk r e; subst e; subst hk; cases h
  · intro b j rm e r q h1 h2 h3 h4
    subst e
    have := allPending_of hi h h1 h2
    simp [h3, onB_of h4] at this

/-- Clean, decided. -/
def cleanB (qid : Nat → Nat) (s : St) (ids : List Nat) : Op → Bool
  | .mgr (.delete b) _ rm => !rm && allPending qid s ids (fun q => !onB q b)
  | _ => true

theorem cleanB_of {qid : Nat → Nat} (s : St) (ids : List Nat) (op : Op) (hi : ∀ r, s.reqs r ≠ none → r ∈ ids)
    (h : cleanB qid s ids op = true) : Clean qid s op := by
  intro b j rm e
  subst e
  simp only [cleanB, Bool.and_eq_true] at h
  refine ⟨by simpa using h.1, fun r q h1 h2 h4 => ?_⟩
  have := allPending_of hi h.2 h1 h2
  simp [onB_of h4] at this

/-- Two blocks on each of four disks; one of them is written, the other one deleted; then the first is read. -/
def opsA : List Op :=
  [.mgr (.new (fun i => i % 4) 0 (List.replicate 8 ⟨.null, 0, 2, 2⟩)) junk false] ++
    (List.range 4).flatMap (fun d => sub d true (blk d 0) 1 d) ++
    (List.range 4).map (fun d => .mgr (.delete (blk d 2)) junk false) ++
    (List.range 4).flatMap (fun d => sub (4 + d) false (blk d 0) (10 + d) d ++ works d 10)

def okA (s : St) (h : Hist) : Bool :=
  (List.range 4).all fun d => (s.qs d).wpc == .serving (4 + d) && s.reqs (4 + d) == some ⟨d, false, 0, 2, 10 + d⟩ && s.failed == [] &&
    ((last (s.qs d).cancelled (h.seen (4 + d))).map (fun e => (e.r, e.data))) == some (d, [11, 12]) &&
    (step .twoQ id s (.run d .work slow)).map (fun s' => (s'.failed, s'.mem (10 + d))) == some ([], [11, 12])

theorem okA_run : ((start [(8, false), (8, false), (8, false), (8, false)] kinds bufs).bind fun s =>
    (runB .twoQ id (orderlyB .twoQ id) s ⟨[], fun _ => []⟩ [] opsA).map fun x => okA x.1 x.2) = some true := by decide +kernel

/-- A block is deleted while a read of it is pending. -/
def opsB (d : Nat) : List Op :=
  [.mgr (.new (fun _ => d) 0 [⟨.null, 0, 2, 2⟩]) junk false] ++ sub 0 true (blk d 0) 1 0 ++ works 0 4 ++ sub 1 false (blk d 0) 7 0 ++
    [.mgr (.delete (blk d 0)) junk false] ++ works 0 2

def okB (d : Nat) (s : St) (h : Hist) : Bool :=
  (s.qs 0).wpc == .serving 1 && s.reqs 1 == some ⟨d, false, 0, 2, 7⟩ && s.failed == [] && (s.qs 0).cancelled == [] &&
    ((last (s.qs 0).cancelled (h.seen 1)).map (fun e => (e.r, e.data))) == some (0, [11, 12])

def endB (x : List UInt8) (s : St) : Bool :=
  (step .oneQ (fun _ => 0) s (.run 0 .work slow)).map (fun s' => (s'.failed, s'.mem 7)) == some ([], x)

theorem okB_run : ((start [(8, false), (8, false)] kinds bufs).bind fun s => (runB .oneQ (fun _ => 0) (fun _ _ _ => true) s ⟨[], fun _ => []⟩ [] (opsB 0)).map
    fun x => okB 0 x.1 x.2 && endB [77, 77] x.1) = some true := by decide +kernel

theorem okB_run1 : ((start [(8, false), (8, false)] kinds bufs).bind fun s => (runB .oneQ (fun _ => 0) (fun _ _ _ => true) s ⟨[], fun _ => []⟩ [] (opsB 1)).map
    fun x => okB 1 x.1 x.2 && endB [0, 0] x.1) = some true := by decide +kernel

/-- Deletion while a write is pending, with one file per block. -/
def opsC : List Op :=
  [.mgr (.new (fun _ => 1) 0 [⟨.null, 0, 2, 2⟩]) junk false] ++ sub 0 true (blk 1 0) 1 1 ++ [.mgr (.delete (blk 1 0)) junk false] ++ works 1 4

def fileAt (s : St) (d off : Nat) : Option (List UInt8) :=
  match s.files d with
  | .fpb _ pre fs => (fs (Files.filenameForBlock pre off)).map (fun f => Files.pread f 0 f.size)
  | _ => none

def okC (s : St) (_ : Hist) : Bool :=
  s.m.live == [] && s.failed == [] && (s.qs 1).served == [0] && fileAt s 1 0 == some [11, 12]

/-- Only request 0 was made. -/
def idle (s : St) : Bool := (s.qs 0).sub == [] && (s.qs 1).sub == [(0, true)]

theorem okC_run : ((start [(8, false), (8, false)] kinds bufs).bind fun s => (runB .twoQ id (orderlyB .twoQ id) s ⟨[], fun _ => []⟩ [] opsC).map
    fun x => okC x.1 x.2 && idle x.1) = some true := by decide +kernel

/-- Two blocks with one file each; one of them is deleted when nothing is pending. -/
def opsD : List Op :=
  [.mgr (.new (fun _ => 1) 0 [⟨.null, 0, 2, 2⟩, ⟨.null, 0, 2, 2⟩]) junk false] ++ sub 0 true (blk 1 0) 1 1 ++ works 1 4 ++ sub 1 true (blk 1 2) 2 1 ++ works 1 4 ++
    [.mgr (.delete (blk 1 0)) junk false]

def okD (s : St) (h : Hist) : Bool :=
  s.m.live == [blk 1 2] && s.failed == [] && (s.qs 1).served == [0, 1] && fileAt s 1 0 == none && fileAt s 1 2 == some [21, 22] &&
    ((last (s.qs 1).cancelled (h.of (blk 1 2))).map (fun e => (e.r, e.data))) == some (1, [21, 22])

theorem okD_run : ((start [(8, false), (8, false)] kinds bufs).bind fun s =>
    (runB .twoQ id (fun s ids op => orderlyB .twoQ id s ids op && cleanB id s ids op) s ⟨[], fun _ => []⟩ [] opsD).map
    fun x => okD x.1 x.2) = some true := by decide +kernel

/-- A canceled read of another block, a write that is served, a canceled write. -/
def opsE (d : Nat) : List Op :=
  [.mgr (.new (fun _ => d) 0 [⟨.null, 0, 2, 2⟩, ⟨.null, 0, 2, 2⟩]) junk false] ++ sub 0 false (blk d 2) 8 d ++ works d 1 ++ [.cancel 0] ++ works d 3 ++
    [.run d .cancelTake slow] ++ sub 1 true (blk d 0) 1 d ++ works d 8 ++ sub 3 true (blk d 0) 2 d ++ [.cancel 3, .run d .cancelTake slow]

/-- The read is served after the deletion of the other block. -/
def opsE2 (d : Nat) : List Op := [.mgr (.delete (blk d 2)) junk false, .run d .signal slow] ++ works d 6

/-- No write of the block is pending. -/
def okE0 (d : Nat) (s : St) (h : Hist) : Bool :=
  allPending id s (idsAfter [] (opsE d)) (fun q => !(q.write && onB q (blk d 0))) && (s.qs d).cancelled == [0, 3] &&
    ((last (s.qs d).cancelled (h.of (blk d 0))).map (fun e => (e.r, e.data))) == some (1, [11, 12])

def okE (d : Nat) (s : St) (_ : Hist) : Bool :=
  (s.qs d).wpc == .serving 2 && s.failed == [] && (step .twoQ id s (.run d .work slow)).map (fun s' => s'.failed) == some []

theorem okE_run : ∀ d, d < 4 → ((start [(8, false), (8, false), (8, false), (8, false)] kinds bufs).bind fun s =>
    run2 .twoQ id (orderlyB .oneQ id) (opsE d) (.io 2 false (blk d 0) 7) (opsE2 d) (okE0 d) (okE d) s) = some true := by decide +kernel

theorem gentle_of {qid : Nat → Nat} (s : St) (ids : List Nat) (op : Op) (hi : ∀ r, s.reqs r ≠ none → r ∈ ids)
    (h : orderlyB .oneQ qid s ids op = true) : Gentle qid s op := (orderlyB_of s ids op hi h).2

end Foxxll.DStore
