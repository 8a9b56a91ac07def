/-
Model of one I/O request: `request`, `request_with_state`, `serving_request`
(/repo/foxxll/io/request.cpp, request_with_state.cpp, serving_request.cpp).

Threads: the worker that takes the request from its queue and serves it, and any number of
threads that call `cancel()`.  Every access to a shared member is one step.  The queue is reduced
to the fact that a request is taken from it once, by the worker or by a successful
`cancel_request` (this is C21).

Left out: the waiters (their registration is modelled in WaitAny.lean), the statistics, the reference
count of the request object, log messages.
-/
namespace Foxxll.Request

/-- `request_state` (request_with_state.hpp:33-34). -/
inductive RS
  | op | done | ready2die
deriving DecidableEq, Repr

/-- Position of a thread.  `ok` is the success flag for the handler. -/
inductive Pc
  | idle
  /-- `if (!file_)` (request_with_state.cpp:51) -/
  | check
  /-- `file_->get_queue_id()` (request_with_state.cpp:55) -/
  | deref
  /-- `disk_queues::cancel_request` (request_with_state.cpp:55) -/
  | queue
  /-- `file_->serve(...)` (serving_request.cpp:53) -/
  | serve
  /-- `state_.set_to(DONE)` (57 / 82) -/
  | setDone (ok : Bool)
  /-- about to call the handler (58-59 / 84-85) -/
  | callBegin (ok : Bool)
  /-- the handler runs -/
  | callEnd (ok : Bool)
  /-- `notify_waiters()` (60 / 86) -/
  | notify (ok : Bool)
  /-- `file_->delete_request_ref()` (61 / request.cpp:97-98) -/
  | delRef (ok : Bool)
  /-- `file_ = nullptr` (62 / request.cpp:99) -/
  | nullFile (ok : Bool)
  /-- `state_.set_to(READY2DIE)` (63 / 89) -/
  | setReady (ok : Bool)
  /-- returned (`cancel` with this value) -/
  | ret (b : Bool)
deriving DecidableEq, Repr

/-- Who took the request from the queue (request_queue_impl_1q.cpp:134-135 and 107, request_queue_impl_qwqr.cpp:169-170, 196-197 and 127, 140). -/
inductive Taker
  | server
  | canceller (t : Nat)
deriving DecidableEq, Repr

/-- Members of the request, positions of the threads, and history (request.hpp:55-71, request_with_state.hpp:36, file.hpp:219). -/
structure St where
  /-- is a handler installed? -/
  h : Bool
  st : RS
  /-- `file_ != nullptr` -/
  file : Bool
  /-- `error_` is set -/
  err : Bool
  /-- contribution of this request to `file::request_ref_` -/
  fref : Nat
  srv : Pc
  can : Nat → Pc
  /-- none: still in the queue -/
  taken : Option Taker
  /-- the transfer has been carried out (or has failed with an I/O error) -/
  served : Bool
  /-- calls of the handler begun (with their flag) -/
  calls : List Bool
  /-- calls of the handler that have returned -/
  rets : Nat
  /-- calls of `notify_waiters` -/
  notified : Nat

/-- How a step ends; null pointers: request_with_state.cpp:55, 61. -/
inductive Res (σ : Type)
  | ok (s : σ)
  | blocked
  /-- null pointer dereference -/
  | ub

/-- A request just added to its queue (request.cpp:23-33, request_with_state.hpp:39-46). -/
def init (h : Bool) : St :=
  { h := h, st := .op, file := true, err := false, fref := 1, srv := .idle, can := fun _ => .idle, taken := none,
    served := false, calls := [], rets := 0, notified := 0 }

/-- The common steps of `completed` (request_with_state.cpp:78-90) and of the successful branch
of `cancel` (57-64); `server` says which of the two.  Returns the new position. -/
def finish (server : Bool) (s : St) : Pc → Res (St × Pc)
  | .setDone ok => .ok ({ s with st := .done }, .callBegin ok)
  | .callBegin ok => if s.h then .ok ({ s with calls := s.calls ++ [ok] }, .callEnd ok) else .ok (s, .notify ok)
  | .callEnd ok => .ok ({ s with rets := s.rets + 1 }, .notify ok)
  | .notify ok => .ok ({ s with notified := s.notified + 1 }, .delRef ok)
  | .delRef ok =>
    if s.file then .ok ({ s with fref := s.fref - 1 }, .nullFile ok)
    else if server then .ok (s, .setReady ok) else .ub
  | .nullFile ok => .ok ({ s with file := false }, .setReady ok)
  | .setReady ok => .ok ({ s with st := .ready2die }, .ret (if server then true else !ok))
  | _ => .blocked

/-- The threads: worker (serving_request.cpp:40-63) and callers of `cancel` (request_with_state.cpp:46-67). -/
inductive Op
  /-- the worker takes the request from the queue -/
  | take
  /-- a step of the worker; `e`: the transfer throws `io_error` -/
  | srv (e : Bool)
  /-- thread `t` calls `cancel()` -/
  | callCancel (t : Nat)
  /-- a step of thread `t` -/
  | can (t : Nat)
deriving DecidableEq, Repr

/-- The position of thread `t` in request_with_state.cpp:46-67. -/
def setCan (s : St) (t : Nat) (p : Pc) : St := { s with can := fun u => if u = t then p else s.can u }

/-- One step of `serve` / `completed` (serving_request.cpp:40-63). -/
def srvStep (s : St) (e : Bool) : Res St :=
  match s.srv with
  | .idle => .blocked
  | .serve => if s.file then .ok { s with served := true, err := e, srv := .setDone true } else .ub
  | p =>
    match finish true s p with
    | .ok (s', p') => .ok { s' with srv := p' }
    | .blocked => .blocked
    | .ub => .ub

/-- One step of `cancel` (request_with_state.cpp:46-67). -/
def canStep (s : St) (t : Nat) : Res St :=
  match s.can t with
  | .check => .ok (setCan s t (if s.file then .deref else .ret false))
  | .deref => if s.file then .ok (setCan s t .queue) else .ub
  | .queue =>
    if s.taken = none then .ok (setCan { s with taken := some (.canceller t) } t (.setDone false))
    else .ok (setCan s t (.ret false))
  | p =>
    match finish false s p with
    | .ok (s', p') => .ok (setCan s' t p')
    | .blocked => .blocked
    | .ub => .ub

/-- One step of a thread in serving_request.cpp:40-63, request_with_state.cpp:46-90. -/
def step (s : St) : Op → Res St
  | .take => if s.taken = none then .ok { s with taken := some .server, srv := .serve } else .blocked
  | .srv e => srvStep s e
  | .callCancel t => if s.can t = .idle then .ok (setCan s t .check) else .blocked
  | .can t => canStep s t

/-- `poll()` (request_with_state.cpp:69-76); `none`: throws the I/O error. -/
def poll (s : St) : Option Bool :=
  if s.err then none else some (s.st == .done || s.st == .ready2die)

/-- May `wait()` (request_with_state.cpp:34-44) return (or throw the I/O error)? -/
def waitReturns (s : St) : Bool := s.st == .ready2die

/-- Reachable states; `P` restricts the steps (no code of its own). -/
inductive Reach (P : St → Op → Prop) : St → Prop
  | start (h : Bool) : Reach P (init h)
  | next {s s'} (op : Op) : Reach P s → P s op → step s op = .ok s' → Reach P s'

end Foxxll.Request
