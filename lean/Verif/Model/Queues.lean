/-
Model of the request queues with a worker thread: `request_queue_impl_1q`
(/repo/foxxll/io/request_queue_impl_1q.cpp), `request_queue_impl_qwqr`
(/repo/foxxll/io/request_queue_impl_qwqr.cpp) and their base class
`request_queue_impl_worker` (/repo/foxxll/io/request_queue_impl_worker.cpp).

Threads: the worker, any number of threads that submit and cancel requests, and one thread that
runs the destructor.  Every access to a shared object (queue under its mutex, semaphore, thread
state) is one step.  Requests are numbers.  `tlx::semaphore` is not part of /repo; `wait()` waits
for a positive value, decrements it and returns the new value, `signal()` increments.

Left out: the log messages (and the search of file_offset_match that only decides about a
message), requests that are not `serving_request`s, start_thread (the worker runs and the state
is RUNNING).
-/
namespace Foxxll.Queue

/-- Which of the two implementations (request_queue_impl_1q.hpp:32, request_queue_impl_qwqr.hpp:34). -/
inductive Kind
  | oneQ
  | twoQ
deriving DecidableEq, Repr

/-- `thread_state` (request_queue_impl_worker.hpp:37); NOT_RUNNING is reached after `join`. -/
inductive TS
  | running | terminating | terminated | notRunning
deriving DecidableEq, Repr

/-- Position of the worker thread; line numbers of 1q / qwqr (request_queue_impl_1q.cpp:122-168, request_queue_impl_qwqr.cpp:155-240). -/
inductive WPc
  /-- at `sem_.wait()` (128 / 162) -/
  | wait
  /-- about to lock a queue (131 / 166, 192) -/
  | token
  /-- queue was empty, about to `sem_.signal()` (146 / 181, 212) -/
  | putBack
  /-- in `serve()` (140 / 175, 204) -/
  | serving (r : Nat)
  /-- about to read the thread state (151 / 223) -/
  | check
  /-- at `sem_.wait() == 0` (152 / 224) -/
  | termWait
  /-- about to `sem_.signal()` (155 / 227) -/
  | termSignal
  /-- about to set TERMINATED (159 / 231) -/
  | exit
  | dead
deriving DecidableEq, Repr

/-- Position of the thread in `stop_thread` (request_queue_impl_worker.cpp:41-65). -/
inductive SPc
  | none
  /-- TERMINATING is set (request_queue_impl_worker.cpp:45), `signal` (request_queue_impl_worker.cpp:46) not yet called -/
  | set
  /-- in `join` (request_queue_impl_worker.cpp:61) -/
  | signalled
  | joined
deriving DecidableEq, Repr

/-- Members of the queue object, the positions of the threads, and the history: requests
submitted (with "is a write"), taken from a queue, served, cancelled, and the results of
`cancel_request`.  For 1q only `wq` is used (request_queue_impl_1q.hpp:38-43, request_queue_impl_qwqr.hpp:42-49). -/
structure St where
  wq : List Nat
  rq : List Nat
  sem : Nat
  /-- submitting threads between `push_back` and `sem_.signal()` -/
  nsig : Nat
  /-- cancelling threads between `erase` and the end of `sem_.wait()` -/
  ncw : Nat
  ts : TS
  wpc : WPc
  /-- `write_phase` (request_queue_impl_qwqr.cpp:159) -/
  phase : Bool
  spc : SPc
  sub : List (Nat × Bool)
  started : List Nat
  served : List Nat
  cancelled : List Nat
  cancelRes : List (Nat × Bool)
deriving DecidableEq, Repr

/-- How a step ends; assertions: request_queue_impl_worker.cpp:44, 63. -/
inductive Res (σ : Type)
  | ok (s : σ)
  | blocked
  /-- invalid_argument (request_queue_impl_1q.cpp:66-67, 94-95) -/
  | throws
  | assertFail
deriving DecidableEq

/-- The constructors (request_queue_impl_1q.cpp:49-54, request_queue_impl_qwqr.cpp:48-53). -/
def init : St :=
  { wq := [], rq := [], sem := 0, nsig := 0, ncw := 0, ts := .running, wpc := .wait, phase := true, spc := .none,
    sub := [], started := [], served := [], cancelled := [], cancelRes := [] }

/-- In 1q the submitting thread holds the queue mutex until after `sem_.signal()` (request_queue_impl_1q.cpp:84-88); in
qwqr the mutex is released before (request_queue_impl_qwqr.cpp:85-107). -/
def locked (k : Kind) (s : St) : Bool := k == .oneQ && s.nsig != 0

/-- Does a request go to the first queue? (request_queue_impl_1q.cpp:85, request_queue_impl_qwqr.cpp:70-105). -/
def toW (k : Kind) (write : Bool) : Bool := k == .oneQ || write

/-- The queue of a request (request_queue_impl_1q.cpp:102-103, request_queue_impl_qwqr.cpp:120-137). -/
def qOf (k : Kind) (s : St) (write : Bool) : List Nat := if toW k write then s.wq else s.rq

/-- `add_request` up to `push_back` (request_queue_impl_1q.cpp:62-85, request_queue_impl_qwqr.cpp:61-105). -/
def push (k : Kind) (s : St) (r : Nat) (write : Bool) : Res St :=
  if s.ts ≠ .running then .throws
  else if locked k s then .blocked
  else
    let s := { s with nsig := s.nsig + 1, sub := s.sub ++ [(r, write)] }
    .ok (if toW k write then { s with wq := s.wq ++ [r] } else { s with rq := s.rq ++ [r] })

/-- `cancel_request` up to `erase` (request_queue_impl_1q.cpp:90-112, request_queue_impl_qwqr.cpp:110-145). -/
def cancel (k : Kind) (s : St) (r : Nat) (write : Bool) : Res St :=
  if s.ts ≠ .running then .throws
  else if locked k s then .blocked
  else if (qOf k s write).contains r then
    let s := { s with ncw := s.ncw + 1, cancelled := s.cancelled ++ [r], cancelRes := s.cancelRes ++ [(r, true)] }
    .ok (if toW k write then { s with wq := s.wq.erase r } else { s with rq := s.rq.erase r })
  else .ok { s with cancelRes := s.cancelRes ++ [(r, false)] }

/-- One step of `worker` (request_queue_impl_1q.cpp:122-168, request_queue_impl_qwqr.cpp:155-240); `priority_op_` is the constant WRITE
(request_queue_impl_qwqr.hpp:51). -/
def work (k : Kind) (s : St) : Res St :=
  match s.wpc with
  | .wait => if s.sem = 0 then .blocked else .ok { s with sem := s.sem - 1, wpc := .token }
  | .token =>
    if locked k s then .blocked
    else if k = .oneQ ∨ s.phase = true then
      match s.wq with
      | r :: q => .ok { s with wq := q, started := s.started ++ [r], wpc := .serving r }
      | [] => .ok { s with wpc := .putBack }
    else
      match s.rq with
      | r :: q => .ok { s with rq := q, started := s.started ++ [r], wpc := .serving r, phase := true }
      | [] => .ok { s with wpc := .putBack }
  | .putBack => .ok { s with sem := s.sem + 1, wpc := .check, phase := if k = .twoQ then !s.phase else s.phase }
  | .serving r => .ok { s with served := s.served ++ [r], wpc := .check }
  | .check => .ok { s with wpc := if s.ts = .terminating then .termWait else .wait }
  | .termWait =>
    if s.sem = 0 then .blocked
    else .ok { s with sem := s.sem - 1, wpc := if s.sem - 1 = 0 then .exit else .termSignal }
  | .termSignal => .ok { s with sem := s.sem + 1, wpc := .wait }
  | .exit => .ok { s with ts := .terminated, wpc := .dead }
  | .dead => .blocked

inductive Op
  | push (r : Nat) (write : Bool)
  /-- a submitting thread calls `sem_.signal()` (request_queue_impl_1q.cpp:87, request_queue_impl_qwqr.cpp:107) -/
  | signal
  | cancel (r : Nat) (write : Bool)
  /-- a cancelling thread passes `sem_.wait()` (request_queue_impl_1q.cpp:110, request_queue_impl_qwqr.cpp:130, 143) -/
  | cancelTake
  | work
  /-- `stop_thread`: `s.set_to(TERMINATING)` (request_queue_impl_worker.cpp:44-45) -/
  | stopSet
  /-- `sem.signal()` (request_queue_impl_worker.cpp:46) -/
  | stopSignal
  /-- `join` returns (request_queue_impl_worker.cpp:61-64) -/
  | join
deriving DecidableEq, Repr

/-- One step of a thread on the queue; cites at `push`, `cancel`, `work` and `Op`; `stop_thread` is request_queue_impl_worker.cpp:41-65. -/
def step (k : Kind) (s : St) : Op → Res St
  | .push r w => push k s r w
  | .signal => if s.nsig = 0 then .blocked else .ok { s with nsig := s.nsig - 1, sem := s.sem + 1 }
  | .cancel r w => cancel k s r w
  | .cancelTake =>
    if s.ncw = 0 ∨ s.sem = 0 then .blocked else .ok { s with ncw := s.ncw - 1, sem := s.sem - 1 }
  | .work => work k s
  | .stopSet =>
    if s.spc = .none then
      if s.ts = .running then .ok { s with ts := .terminating, spc := .set } else .assertFail
    else .blocked
  | .stopSignal => if s.spc = .set then .ok { s with sem := s.sem + 1, spc := .signalled } else .blocked
  | .join =>
    if s.spc = .signalled ∧ s.wpc = .dead then
      if s.ts = .terminated then .ok { s with ts := .notRunning, spc := .joined } else .assertFail
    else .blocked

/-- Use of the queue: every request is submitted once; the kind given to `cancel` is the kind of
the request; the destructor does not overlap with other calls and is not followed by any (requests are added once, by disk_queued_file.cpp:23-47; the kind is `op()` of the request, request_queue_impl_qwqr.cpp:120). -/
def Legal (s : St) : Op → Prop
  | .push r _ => r ∉ s.sub.map (·.1) ∧ s.spc = .none
  | .cancel r w => (∀ w', (r, w') ∈ s.sub → w' = w) ∧ s.spc = .none
  | .stopSet => s.nsig = 0 ∧ s.ncw = 0
  | _ => True

/-- Reachable states.  `P s op` restricts the steps (used to exclude cancellation or the
shutdown race) (no code of its own). -/
inductive Reach (k : Kind) (P : St → Op → Prop) : St → Prop
  | start : Reach k P init
  | next {s s'} (op : Op) : Reach k P s → Legal s op → P s op → step k s op = .ok s' → Reach k P s'

end Foxxll.Queue
