import Verif.Model.Iostats

/-
Specification of the I/O statistics: requests with their own start and finish times, independent of
the accumulators of the code.
-/
namespace Foxxll.Iostats

/-- Requests are numbered; `start`, `fin`: their timestamps, `size`: their bytes. -/
structure Reqs where
  start : Nat → Int
  fin : Nat → Int
  size : Nat → Nat

/-- The state of the requests of one direction of one file. -/
structure Book where
  running : List Nat := []
  finished : List Nat := []
  /-- cancelled; they still are finished afterwards -/
  canceled : List Nat := []
  /-- operations reported as a whole: bytes and duration -/
  ops : List (Nat × Int) := []

/-- Sections recorded for one direction of one file, in any order of their times: a request is started
once, cancelled only while it runs, and finished once, after its start. -/
inductive History (q : Reqs) : List FileSec → Book → Prop
  | nil : History q [] {}
  | start {l b} (r : Nat) (h : History q l b) (hr : r ∉ b.running) (hf : r ∉ b.finished) :
      History q (l ++ [.started (q.size r) (q.start r)]) { b with running := r :: b.running }
  | cancel {l b} (r : Nat) (h : History q l b) (hr : r ∈ b.running) (hc : r ∉ b.canceled) :
      History q (l ++ [.canceled (q.size r)]) { b with canceled := r :: b.canceled }
  | finish {l b} (r : Nat) (h : History q l b) (hr : r ∈ b.running) :
      History q (l ++ [.finished (q.fin r)]) { b with running := b.running.erase r, finished := r :: b.finished }
  | op {l b} (n : Nat) (d : Int) (h : History q l b) :
      History q (l ++ [.opFinished n d]) { b with ops := (n, d) :: b.ops }

/-- The duration of a request. -/
def Reqs.duration (q : Reqs) (r : Nat) : Int := q.fin r - q.start r

/-- Sections of one direction of one file. -/
def fileSecs (f : Nat) (d : Dir) (l : List Sec) : List FileSec :=
  l.filterMap fun
    | .file f' d' s => if f' = f ∧ d' = d then some s else none
    | _ => none

/-- Starts (`true`) and ends of the parallel time of one direction. -/
def parEvents (d : Dir) (l : List Sec) : List (Bool × Int) :=
  l.filterMap fun
    | .par d' b now => if d' = d then some (b, now) else none
    | _ => none

/-- Starts and ends of the parallel time of all operations. -/
def ioEvents (l : List Sec) : List (Bool × Int) :=
  l.filterMap fun
    | .io b now => some (b, now)
    | _ => none

/-- Starts and ends of waits that satisfy `sel`. -/
def waitEvents (sel : WaitOp → Bool) (l : List Sec) : List (Bool × Int) :=
  l.filterMap fun
    | .wait op b now => if sel op then some (b, now) else none
    | _ => none

/-- Events of operations recorded in any order of their times. -/
inductive Events (start fin : Nat → Int) : List (Bool × Int) → List Nat → List Nat → Prop
  | nil : Events start fin [] [] []
  | start {l run don} (r : Nat) (h : Events start fin l run don) (hr : r ∉ run) (hd : r ∉ don) :
      Events start fin (l ++ [(true, start r)]) (r :: run) don
  | finish {l run don} (r : Nat) (h : Events start fin l run don) (hr : r ∈ run) :
      Events start fin (l ++ [(false, fin r)]) (run.erase r) (r :: don)

/-- Events recorded in time order; the last index is the time of the last event. -/
inductive Ordered (start fin : Nat → Nat) : List (Bool × Int) → List Nat → List Nat → Nat → Prop
  | nil : Ordered start fin [] [] [] 0
  | start {l run don t} (r : Nat) (h : Ordered start fin l run don t) (hr : r ∉ run) (hd : r ∉ don) (ht : t ≤ start r) :
      Ordered start fin (l ++ [(true, (start r : Int))]) (r :: run) don (start r)
  | finish {l run don t} (r : Nat) (h : Ordered start fin l run don t) (hr : r ∈ run) (ht : t ≤ fin r) :
      Ordered start fin (l ++ [(false, (fin r : Int))]) (run.erase r) (r :: don) (fin r)

/-- Some operation is active during tick `t`. -/
def activeAt (start fin : Nat → Nat) (run don : List Nat) (t : Nat) : Bool :=
  run.any (fun r => decide (start r ≤ t)) || don.any (fun r => decide (start r ≤ t ∧ t < fin r))

/-- The number of ticks before `T` in which at least one operation is active. -/
def busy (start fin : Nat → Nat) (run don : List Nat) (T : Nat) : Nat :=
  ((List.range T).filter (activeAt start fin run don)).length

/-- Results of a sequence of calls of `create_file_stats`: (id, object), the latest first. -/
def createAll : List Nat → List Entry × List (Nat × Nat)
  | [] => ([], [])
  | dev :: earlier =>
    let s := createAll earlier
    let r := createFileStats s.1 dev earlier.length
    (r.1, (dev, r.2) :: s.2)

/-- Statistics are kept per device (ids with the latest call first). -/
def PerDevice (ids : List Nat) : Prop :=
  ∀ x ∈ (createAll ids).2, ∀ y ∈ (createAll ids).2, x.1 = y.1 ↔ x.2 = y.2

/-- Each id (the latest first) is larger than all ids before, or is not 0 and has been asked before, or all ids so far are 0. -/
def Increasing : List Nat → Prop
  | [] => True
  | dev :: earlier =>
    Increasing earlier ∧ ((∀ x ∈ earlier, x < dev) ∨ (dev ≠ 0 ∧ dev ∈ earlier) ∨ (dev = 0 ∧ ∀ x ∈ earlier, x = 0))

/-- Requests and bytes added by sections, cancelled ones subtracted. -/
def netCount : List FileSec → Int
  | [] => 0
  | .started _ _ :: l => netCount l + 1
  | .opFinished _ _ :: l => netCount l + 1
  | .canceled _ :: l => netCount l - 1
  | .finished _ :: l => netCount l

def netBytes : List FileSec → Int
  | [] => 0
  | .started n _ :: l => netBytes l + n
  | .opFinished n _ :: l => netBytes l + n
  | .canceled n :: l => netBytes l - n
  | .finished _ :: l => netBytes l

/-- Numbers are in the range of their C++ type. -/
def FileData.Fits (x : FileData) : Prop :=
  x.readCount < 2 ^ 32 ∧ x.writeCount < 2 ^ 32 ∧ x.readBytes < 2 ^ 64 ∧ x.writeBytes < 2 ^ 64

/-- The list of files of a snapshot `b` taken later than `a`: files are only inserted, the list is sorted by device. -/
structure Later (a b : List FileData) : Prop where
  grown : (a.map (·.dev)).Sublist (b.map (·.dev))
  sorted : (b.map (·.dev)).Pairwise (· ≤ ·)
  fits : ∀ x ∈ b, x.Fits
  fitsA : ∀ x ∈ a, x.Fits

/-- Calls made by the owner of a scoped timer: `true` is `start`, `false` is `stop`. -/
def timerRun : List Bool → Timer → Timer
  | [], t => t
  | true :: l, t => timerRun l t.start
  | false :: l, t => timerRun l t.stop

end Foxxll.Iostats
