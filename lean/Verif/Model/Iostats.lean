/-
Model of the I/O statistics (/repo/foxxll/io/iostats.cpp, iostats.hpp).

Times are integers (ticks) instead of doubles, so sums are exact.  `timestamp()` is taken before the
mutex is locked, so the order in which events are recorded is not the order of their times: every
function is a sequence of sections, each atomic under its own mutex, with the time as parameter.
-/
namespace Foxxll.Iostats

/-! ### `file_stats` -/

/-- The members of `file_stats` for one direction (iostats.hpp:50-60), zero
initially (iostats.cpp:35-42): `read_count_`,
`read_bytes_`, `read_time_`, `p_begin_read_`, `acc_reads_`, or those for writes.  The code for writes
(iostats.cpp:44-95) is the code for reads (97-148) with the other members.  `acc_reads_` is an `int`,
unbounded here. -/
structure Side where
  count : Nat := 0
  bytes : Nat := 0
  time : Int := 0
  begin_ : Int := 0
  acc : Int := 0

/-- Section of `read_started` / `write_started` (iostats.cpp:102-110, 49-57).  `unsigned` counts wrap at
2^32, `external_size_type` at 2^64. -/
def Side.started (s : Side) (size : Nat) (now : Int) : Side :=
  { count := (s.count + 1) % 2 ^ 32, bytes := (s.bytes + size) % 2 ^ 64,
    time := s.time + s.acc * (now - s.begin_), acc := s.acc + 1, begin_ := now }

/-- Section of `read_finished` / `write_finished` (iostats.cpp:130-136, 77-83). -/
def Side.finished (s : Side) (now : Int) : Side :=
  { s with time := s.time + s.acc * (now - s.begin_), acc := s.acc - 1, begin_ := now }

/-- First section of `read_canceled` / `write_canceled` (iostats.cpp:117-122, 64-69); `finished` follows.
`size` is a `size_t`, hence below 2^64; `% 2 ^ 64` keeps the natural numbers total. -/
def Side.canceled (s : Side) (size : Nat) : Side :=
  { s with count := (s.count + 2 ^ 32 - 1) % 2 ^ 32, bytes := (s.bytes + 2 ^ 64 - size % 2 ^ 64) % 2 ^ 64 }

/-- `read_op_finished` / `write_op_finished` (iostats.cpp:141-148, 88-95). -/
def Side.opFinished (s : Side) (size : Nat) (duration : Int) : Side :=
  { s with count := (s.count + 1) % 2 ^ 32, time := s.time + duration, bytes := (s.bytes + size) % 2 ^ 64 }

/-- The sections above (iostats.cpp:44-148) as one type. -/
inductive FileSec
  | started (size : Nat) (now : Int)
  | finished (now : Int)
  | canceled (size : Nat)
  | opFinished (size : Nat) (duration : Int)

/-- Executes a section (iostats.cpp:44-148). -/
def Side.step (s : Side) : FileSec → Side
  | .started size now => s.started size now
  | .finished now => s.finished now
  | .canceled size => s.canceled size
  | .opFinished size d => s.opFinished size d

/-! ### Parallel times -/

/-- `p_reads_`, `p_begin_read_`, `acc_reads_` of `stats` (iostats.hpp:334-344), and likewise for
writes and for all operations; zero initially (iostats.cpp:196-204). -/
structure Par where
  time : Int := 0
  begin_ : Int := 0
  acc : Int := 0

/-- The sections of `p_read_started`, `p_write_started` (iostats.cpp:317-330, 281-294): the read (write)
section and the io section do the same to different members. -/
def Par.started (p : Par) (now : Int) : Par :=
  { time := p.time + (if p.acc ≠ 0 then now - p.begin_ else 0), acc := p.acc + 1, begin_ := now }

/-- Sections of `p_read_finished`, `p_write_finished` (iostats.cpp:335-348, 299-312). -/
def Par.finished (p : Par) (now : Int) : Par :=
  { time := p.time + (if p.acc ≠ 0 then now - p.begin_ else 0), acc := p.acc - 1, begin_ := now }

/-! ### Waiting times -/

/-- `t_waits_`, `p_waits_`, `p_begin_wait_`, `acc_waits_` (iostats.hpp:349-356), and likewise for
reads and writes. -/
structure Wait where
  t : Int := 0
  p : Int := 0
  begin_ : Int := 0
  acc : Int := 0

/-- iostats.cpp:223-226, 229-232, 236-239 -/
def Wait.started (w : Wait) (now : Int) : Wait :=
  { t := w.t + w.acc * (now - w.begin_), begin_ := now, p := w.p + (if w.acc ≠ 0 then now - w.begin_ else 0), acc := w.acc + 1 }

/-- iostats.cpp:250-253, 256-259, 262-265 -/
def Wait.finished (w : Wait) (now : Int) : Wait :=
  { t := w.t + w.acc * (now - w.begin_), begin_ := now, p := w.p + (if w.acc ≠ 0 then now - w.begin_ else 0), acc := w.acc - 1 }

/-- `wait_op_type` (iostats.hpp:364-368) -/
inductive WaitOp
  | any
  | read
  | write
  deriving DecidableEq

/-- The three groups of members for waits (iostats.hpp:348-356). -/
structure Waits where
  all : Wait := {}
  read : Wait := {}
  write : Wait := {}

/-- `wait_started` (iostats.cpp:217-242): one section. -/
def Waits.started (w : Waits) (op : WaitOp) (now : Int) : Waits :=
  if op = .read then { w with all := w.all.started now, read := w.read.started now }
  else { w with all := w.all.started now, write := w.write.started now }

/-- `wait_finished` (iostats.cpp:244-276). -/
def Waits.finished (w : Waits) (op : WaitOp) (now : Int) : Waits :=
  if op = .read then { w with all := w.all.finished now, read := w.read.finished now }
  else { w with all := w.all.finished now, write := w.write.finished now }

/-! ### All sections -/

/-- Reads or writes (iostats.hpp:50-60). -/
inductive Dir
  | read
  | write
  deriving DecidableEq

/-- The global object `stats` (iostats.hpp:319-361) and the objects `file_stats` (45-62), numbered. -/
structure World where
  file : Nat → Dir → Side := fun _ _ => {}
  par : Dir → Par := fun _ => {}
  ios : Par := {}
  waits : Waits := {}

/-- A section executed by some thread (iostats.cpp:44-349): `read_started` of file `f` is the sections
`file f .read (.started ..)`, `par .read true ..`, `io true ..`, with the same time. -/
inductive Sec
  | file (f : Nat) (d : Dir) (s : FileSec)
  | par (d : Dir) (start : Bool) (now : Int)
  | io (start : Bool) (now : Int)
  | wait (op : WaitOp) (start : Bool) (now : Int)

/-- One section, atomic under its mutex (iostats.cpp:44-349). -/
def World.step (w : World) : Sec → World
  | .file f d s => { w with file := fun f' d' => if f' = f ∧ d' = d then (w.file f d).step s else w.file f' d' }
  | .par d start now => { w with par := fun d' => if d' = d then (if start then (w.par d).started now else (w.par d).finished now) else w.par d' }
  | .io start now => { w with ios := if start then w.ios.started now else w.ios.finished now }
  | .wait op start now => { w with waits := if start then w.waits.started op now else w.waits.finished op now }

/-- Sections of all threads in the order in which the mutexes are acquired (iostats.cpp:44-349). -/
def World.run (w : World) : List Sec → World
  | [] => w
  | s :: l => (w.step s).run l

/-- The sections of a call of `file_stats` (iostats.cpp:44-139) in the order in which the calling thread
executes them. -/
def sections (f : Nat) (d : Dir) : FileSec → List Sec
  | .started size now => [.file f d (.started size now), .par d true now, .io true now]
  | .finished now => [.file f d (.finished now), .par d false now, .io false now]
  | .canceled size => [.file f d (.canceled size)]
  | .opFinished size dur => [.file f d (.opFinished size dur)]

/-! ### Scoped timers -/

/-- `scoped_read_write_timer` and the other two (iostats.hpp:68-182), and `scoped_wait_timer`
(370-411): the flag `running_` and the calls made, `true` for started. -/
structure Timer where
  running : Bool := false
  calls : List Bool := []

/-- iostats.hpp:89-98, 131-137, 167-173, 392-400 -/
def Timer.start (t : Timer) : Timer := if t.running then t else { running := true, calls := t.calls ++ [true] }

/-- iostats.hpp:100-109, 139-145, 175-181, 402-410; also the destructors 84-87, 126-129, 162-165, 387-390 -/
def Timer.stop (t : Timer) : Timer := if t.running then { running := false, calls := t.calls ++ [false] } else t

/-! ### The list of `file_stats` -/

/-- An element of `file_stats_list_` (iostats.hpp:328): the object (its address) and its device id. -/
structure Entry where
  obj : Nat
  dev : Nat
  deriving DecidableEq

/-- `std::lower_bound` (iostats.cpp:354-359) by device id on a list sorted by it: number of elements
skipped. -/
def lowerBound (dev : Nat) (l : List Entry) : Nat := (l.takeWhile (fun e => decide (e.dev < dev))).length

/-- `create_file_stats` (iostats.cpp:351-365): the new list and the object returned.  `fresh` is
the address of a newly constructed object. -/
def createFileStats (l : List Entry) (dev fresh : Nat) : List Entry × Nat :=
  let i := lowerBound dev l
  match l[i]? with
  | some e =>
    if e.dev ≠ 0 then (l, e.obj)
    else
      let l' := l.take i ++ { obj := fresh, dev := dev } :: l.drop i
      (l', (l'.getLast?.getD { obj := fresh, dev := dev }).obj)
  | none =>
    let l' := l.take i ++ { obj := fresh, dev := dev } :: l.drop i
    (l', (l'.getLast?.getD { obj := fresh, dev := dev }).obj)

/-! ### Snapshots -/

/-- `file_stats_data` (iostats.hpp:248-315).  The constructor (268-276) reads the members of a
`file_stats` without its mutexes; here a snapshot is taken between sections. -/
structure FileData where
  dev : Nat
  readCount : Nat
  writeCount : Nat
  readBytes : Nat
  writeBytes : Nat
  readTime : Int
  writeTime : Int

/-- `file_stats_data::operator +` (iostats.cpp:153-171); `none`: `std::runtime_error`. -/
def FileData.add (x a : FileData) : Option FileData :=
  if x.dev ≠ a.dev then none
  else some { dev := x.dev, readCount := (x.readCount + a.readCount) % 2 ^ 32, writeCount := (x.writeCount + a.writeCount) % 2 ^ 32,
              readBytes := (x.readBytes + a.readBytes) % 2 ^ 64, writeBytes := (x.writeBytes + a.writeBytes) % 2 ^ 64,
              readTime := x.readTime + a.readTime, writeTime := x.writeTime + a.writeTime }

/-- The constructor of `file_stats_data` from a `file_stats` (iostats.hpp:268-276). -/
def FileData.ofSides (dev : Nat) (f : Dir → Side) : FileData :=
  { dev := dev, readCount := (f .read).count, writeCount := (f .write).count, readBytes := (f .read).bytes,
    writeBytes := (f .write).bytes, readTime := (f .read).time, writeTime := (f .write).time }

/-- `file_stats_data::operator -` (iostats.cpp:173-191). -/
def FileData.sub (x a : FileData) : Option FileData :=
  if x.dev ≠ a.dev then none
  else some { dev := x.dev, readCount := (x.readCount + 2 ^ 32 - a.readCount) % 2 ^ 32, writeCount := (x.writeCount + 2 ^ 32 - a.writeCount) % 2 ^ 32,
              readBytes := (x.readBytes + 2 ^ 64 - a.readBytes) % 2 ^ 64, writeBytes := (x.writeBytes + 2 ^ 64 - a.writeBytes) % 2 ^ 64,
              readTime := x.readTime - a.readTime, writeTime := x.writeTime - a.writeTime }

/-- `tlx::merge_combine` with `FileStatsDataCompare` (iostats.cpp:436-442).  The source of tlx is not in /repo
(/repo/extlib/tlx is empty); assumed: the merge of two sorted sequences, elements with equal keys are
combined pairwise, all others copied. -/
def mergeCombine (combine : FileData → FileData → Option FileData) : List FileData → List FileData → Option (List FileData)
  | [], b => some b
  | a, [] => some a
  | x :: a, y :: b =>
    if x.dev < y.dev then (mergeCombine combine a (y :: b)).map (x :: ·)
    else if y.dev < x.dev then (mergeCombine combine (x :: a) b).map (y :: ·)
    else
      match combine x y with
      | none => none
      | some z => (mergeCombine combine a b).map (z :: ·)
termination_by a b => a.length + b.length

/-- `stats_data` (iostats.hpp:486-640); `times` are `p_reads_`, `p_writes_`, `p_ios_`, `t_wait`,
`t_wait_read_`, `t_wait_write_`, `elapsed_`, which are all treated alike. -/
structure Data where
  times : Fin 7 → Int
  files : List FileData

/-- `stats_data::operator +` (iostats.cpp:444-466). -/
def Data.add (x a : Data) : Option Data :=
  (mergeCombine FileData.add x.files a.files).map fun f => { times := fun i => x.times i + a.times i, files := f }

/-- `stats_data::operator -` (iostats.cpp:468-490). -/
def Data.sub (x a : Data) : Option Data :=
  (mergeCombine FileData.sub x.files a.files).map fun f => { times := fun i => x.times i - a.times i, files := f }

end Foxxll.Iostats
