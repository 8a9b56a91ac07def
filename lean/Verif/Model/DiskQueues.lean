import Verif.Model.OpenFile
/-
Model of `disk_queues` (/repo/foxxll/io/disk_queues.cpp): the map from queue ids to queues, and how
files choose their request type (/repo/foxxll/io/disk_queued_file.cpp, linuxaio_file.cpp:22-46).

A queue is its type, the queue length it was created with and the requests given to it; what the
worker threads do is in `Verif.Model.Queues` and `Verif.Model.Linuxaio`.  The mutex makes every call
one step.  The build option FOXXLL_HACK_SINGLE_IO_THREAD (off, defines.hpp:55) is left out.
-/
namespace Foxxll.DiskQ

/-- `request_queue*`: `linuxaio_queue` or `request_queue_impl_qwqr` (disk_queues.hpp:44, disk_queues.cpp:53, 57). -/
structure Queue where
  aio : Bool
  /-- argument of the constructor of `linuxaio_queue` -/
  length : Int := 0
  /-- requests given to the queue and not canceled, newest last -/
  reqs : List Nat := []
  deriving DecidableEq

/-- `queues_` (disk_queues.hpp:44, 49). -/
abbrev Map := Int → Option Queue

/-- Assignment `queues_[i] = q` (disk_queues.cpp:53, 57, 74, 79). -/
def Map.set (m : Map) (i : Int) (q : Queue) : Map := fun j => if j = i then some q else m j

/-- How a call ends. -/
inductive Res (α : Type)
  | ok (a : α)
  /-- `tlx_die` (linuxaio_queue.cpp:83, 101) -/
  | die
  /-- an incompatible request is stored, only a message is printed; the worker thread will call
  `serve` of a null pointer (request_queue_impl_qwqr.cpp:67-68, 175, 204) -/
  | ub
  deriving DecidableEq

/-- What of a file matters here: `linuxaio_file` or not, `get_queue_id()`, the queue length (disk_queues.cpp:43, 51-53). -/
structure File where
  aio : Bool
  queue : Int
  length : Int := 0
  deriving DecidableEq

/-- The file that `create_file` gives (create_file.cpp:44-209), as far as the queues see it. -/
def ofObj (o : Open.FileObj) : File := { aio := o.kind = .linuxaio, queue := o.queue, length := o.queueLength }

/-- The queue created for a file (disk_queues.cpp:49-57, 71-80). -/
def fresh (f : File) : Queue := { aio := f.aio, length := if f.aio then f.length else 0 }

/-- `make_queue` (disk_queues.cpp:39-58). -/
def makeQueue (m : Map) (f : File) : Map :=
  match m f.queue with
  | some _ => m
  | none => m.set f.queue (fresh f)

/-- `add_request` of the queue (linuxaio_queue.cpp:76-90, request_queue_impl_qwqr.cpp:61-108);
`aio` is the type of the request.  The threads are running. -/
def enqueue (q : Queue) (aio : Bool) (r : Nat) : Res Queue :=
  if q.aio then (if aio then .ok { q with reqs := q.reqs ++ [r] } else .die)
  else (if aio then .ub else .ok { q with reqs := q.reqs ++ [r] })

/-- `disk_queues::add_request` (disk_queues.cpp:60-85), called by `aread` and `awrite` of the file with a request of
its own type and its own queue id (disk_queued_file.cpp:23-47, linuxaio_file.cpp:22-46). -/
def addRequest (m : Map) (f : File) (r : Nat) : Res Map :=
  let q := (m f.queue).getD (fresh f)
  match enqueue q f.aio r with
  | .ok q' => .ok (m.set f.queue q')
  | .die => .die
  | .ub => .ub

/-- `disk_queues::cancel_request` (disk_queues.cpp:87-98) of a `serving_request` (request_with_state.cpp:46-67), and
`linuxaio_request::cancel` (linuxaio_request.cpp:80-90), which uses `get_queue` (100-108) and a
`dynamic_cast` without a test.  Whether the request was still waiting is decided in the queue: here
by looking at the requests given to it. -/
def cancel (m : Map) (f : File) (r : Nat) : Res (Map × Bool) :=
  match m f.queue with
  | none => if f.aio then .ub else .ok (m, false)
  | some q =>
    if f.aio then
      if q.aio then .ok (m.set f.queue { q with reqs := q.reqs.erase r }, decide (r ∈ q.reqs)) else .ub
    else if q.aio then .die
    else .ok (m.set f.queue { q with reqs := q.reqs.erase r }, decide (r ∈ q.reqs))

/-- Calls of the functions (disk_queues.cpp:39-98). -/
inductive Op
  | make (f : File)
  | add (f : File) (r : Nat)
  | cancel (f : File) (r : Nat)

/-- The file of a call (disk_queues.cpp:39, 60, 87). -/
def Op.file : Op → File
  | .make f => f
  | .add f _ => f
  | .cancel f _ => f

/-- One call (disk_queues.cpp:39-98). -/
def step (m : Map) : Op → Res Map
  | .make f => .ok (makeQueue m f)
  | .add f r => addRequest m f r
  | .cancel f r =>
    match cancel m f r with
    | .ok p => .ok p.1
    | .die => .die
    | .ub => .ub

/-- A sequence of calls (disk_queues.cpp:39-98). -/
def run (m : Map) : List Op → Res Map
  | [] => .ok m
  | o :: os =>
    match step m o with
    | .ok m' => run m' os
    | .die => .die
    | .ub => .ub

/-- No queues (disk_queues.cpp:26-29). -/
def empty : Map := fun _ => none

end Foxxll.DiskQ
