import Verif.Model.DiskQueues
/-
Model of `disk_queues` (/repo/foxxll/io/disk_queues.cpp) when queues cannot be created: the constructors of the queues call the operating system and may throw
(/repo/foxxll/io/linuxaio_queue.cpp:34-67, /repo/foxxll/io/request_queue_impl_qwqr.cpp:48-53).

`queues_[id] = new Q(...)` (disk_queues.cpp:53, 57, 74, 79) inserts a null pointer for `id`, creates the queue, and stores it.  Up to C++14, which is the
standard chosen by the build (/repo/CMakeLists.txt:210-213), the order of the first two is unspecified; it is a parameter (`lhs`: the insertion comes first).

Simplifications: those of `Model/DiskQueues.lean`.  Inserting in the map does not throw.
-/
namespace Foxxll.QSetup
open Foxxll.DiskQ (Queue File Op fresh enqueue)

/-- What the operating system says in the constructor of a queue: everything works; `io_setup` fails (linuxaio_queue.cpp:49-59); the first, or the second thread cannot be
started (request_queue_impl_worker.cpp:32-38; linuxaio_queue.cpp:65-66, request_queue_impl_qwqr.cpp:52). -/
inductive Os
  | ok
  | noContext
  | noThread
  | noSecond
  deriving DecidableEq, Repr

/-- How a constructor ends: it returns; it throws, with or without losing an I/O context of the kernel; the program is terminated. -/
inductive Made
  | ok
  | throws (leak : Bool)
  | terminates
  deriving DecidableEq, Repr

/-- Constructors of the queues (linuxaio_queue.cpp:34-67, request_queue_impl_qwqr.cpp:48-53).  When the second thread of a `linuxaio_queue` cannot be started, the member
`post_thread_` (linuxaio_queue.hpp:63) is destroyed while it is joinable, which is `std::terminate`; `io_destroy` is called in the destructor only (linuxaio_queue.cpp:69-74). -/
def construct (aio : Bool) : Os → Made
  | .ok => .ok
  | .noContext => if aio then .throws false else .ok
  | .noThread => .throws aio
  | .noSecond => if aio then .terminates else .ok

/-- `queues_` (disk_queues.hpp:44, 49): entries with a queue, or with a null pointer. -/
abbrev Map := List (Int × Option Queue)

/-- `queues_.find` (disk_queues.cpp:45, 67, 94, 104). -/
def find (m : Map) (i : Int) : Option (Option Queue) := (m.find? fun x => x.1 == i).map (·.2)

/-- `queues_[i] = q` with `q` evaluated (disk_queues.cpp:53, 57, 74, 79). -/
def set (m : Map) (i : Int) (q : Option Queue) : Map :=
  if (find m i).isSome then m.map fun x => if x.1 == i then (i, q) else x else m ++ [(i, q)]

/-- The map and the I/O contexts of the kernel that nobody can destroy any more (linuxaio_queue.cpp:49, 73). -/
structure St where
  m : Map := []
  lost : Nat := 0

/-- How a call ends: as in `Model/DiskQueues.lean`, or with an exception, after which the program goes on, or by `std::terminate`. -/
inductive Res (α : Type)
  | ok (a : α)
  | threw (s : St)
  | die
  | terminated
  | ub

/-- `queues_[id] = new Q(...)` (disk_queues.cpp:49-57, 71-80). -/
def create (lhs : Bool) (os : Os) (s : St) (f : File) : Res St :=
  match construct f.aio os with
  | .ok => .ok { s with m := set s.m f.queue (some (fresh f)) }
  | .throws leak => .threw { m := if lhs then set s.m f.queue none else s.m, lost := s.lost + if leak then 1 else 0 }
  | .terminates => .terminated

/-- `make_queue` (disk_queues.cpp:39-58). -/
def makeQueue (lhs : Bool) (os : Os) (s : St) (f : File) : Res St :=
  match find s.m f.queue with
  | some _ => .ok s
  | none => create lhs os s f

/-- `q->add_request` (disk_queues.cpp:84) for a queue that was found or created. -/
def give (s : St) (f : File) (r : Nat) : Res St :=
  match find s.m f.queue with
  | some (some q) =>
    match enqueue q f.aio r with
    | .ok q' => .ok { s with m := set s.m f.queue (some q') }
    | .die => .die
    | .ub => .ub
  | _ => .ub

/-- `disk_queues::add_request` (disk_queues.cpp:60-85); a null pointer that is found is used (81-84). -/
def addRequest (lhs : Bool) (os : Os) (s : St) (f : File) (r : Nat) : Res St :=
  match find s.m f.queue with
  | some _ => give s f r
  | none =>
    match create lhs os s f with
    | .ok s1 => give s1 f r
    | x => x

/-- `disk_queues::cancel_request` (disk_queues.cpp:87-98), or `get_queue` (100-108) and a `dynamic_cast` without a test (linuxaio_request.cpp:80-90). -/
def cancel (s : St) (f : File) (r : Nat) : Res St :=
  match find s.m f.queue with
  | none => if f.aio then .ub else .ok s
  | some none => .ub
  | some (some q) =>
    if f.aio then
      if q.aio then .ok { s with m := set s.m f.queue (some { q with reqs := q.reqs.erase r }) } else .ub
    else if q.aio then .die
    else .ok { s with m := set s.m f.queue (some { q with reqs := q.reqs.erase r }) }

/-- Calls: those of `Model/DiskQueues.lean`, and `set_priority_op` (disk_queues.cpp:39-116). -/
inductive Call
  | op (o : Op)
  | priority

/-- `set_priority_op` (disk_queues.cpp:110-116) calls every queue; the queues ignore it (request_queue_impl_qwqr.cpp:55-59). -/
def priority (s : St) : Res St := if s.m.any (fun x => find s.m x.1 == some none) then .ub else .ok s

/-- One call (disk_queues.cpp:39-116), `os` for the constructor that it may call. -/
def step (lhs : Bool) (s : St) (os : Os) : Call → Res St
  | .op (.make f) => makeQueue lhs os s f
  | .op (.add f r) => addRequest lhs os s f r
  | .op (.cancel f r) => cancel s f r
  | .priority => priority s

/-- A sequence of calls (disk_queues.cpp:39-116); the program catches exceptions. -/
def run (lhs : Bool) (s : St) : List (Os × Call) → Res St
  | [] => .ok s
  | (os, c) :: l =>
    match step lhs s os c with
    | .ok s' => run lhs s' l
    | .threw s' => run lhs s' l
    | x => x

/-- The loop of the constructor of `block_manager` (block_manager.cpp:47-77) over its files, as far as the queues are concerned: the first exception leaves it. -/
def openAll (lhs : Bool) (s : St) : List (Os × File) → Res St
  | [] => .ok s
  | (os, f) :: l =>
    match makeQueue lhs os s f with
    | .ok s' => openAll lhs s' l
    | x => x

end Foxxll.QSetup
