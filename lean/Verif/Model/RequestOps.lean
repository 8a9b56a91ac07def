/-
Model of `wait_all`, `cancel_all` and `poll_any` (/repo/foxxll/io/request_operations.hpp:27-97): one call
of each kind by a thread, while other threads complete the requests.

Of a request its state, its error and whether it still waits in its queue are modelled
(request_with_state.cpp:34-90, serving_request.cpp:40-63).  A successful `cancel` is one step (it is
modelled in detail in Requests.lean); so is the access to the queue.  A request posted to the kernel by
linuxaio counts as taken; that `io_cancel` may still cancel it is in Aio.lean.
-/
namespace Foxxll.ReqOps

/-- `request_state` (request_with_state.hpp:33-34) -/
inductive RS
  | op | done | ready2die
  deriving DecidableEq

/-- A request (request.hpp:55-71, request_with_state.hpp:36). -/
structure Req where
  st : RS := .op
  /-- `error_` is set -/
  err : Bool := false
  /-- waits in its queue -/
  queued : Bool := true
  /-- canceled (record) -/
  canceled : Bool := false
  /-- the transfer was executed or tried (record) -/
  served : Bool := false
  deriving DecidableEq

/-- Position of the call, at index `i` of its requests. -/
inductive Pc
  /-- `wait` (request_operations.hpp:35-36): `state_.wait_for(READY2DIE)` (request_with_state.cpp:41) -/
  | wait (i : Nat)
  /-- `wait`: `check_errors` (request_with_state.cpp:43) -/
  | check (i : Nat)
  /-- `cancel` (request_operations.hpp:62-63) with the number canceled so far -/
  | cancel (i n : Nat)
  /-- `poll` (request_operations.hpp:78): the state is read (request_with_state.cpp:71) -/
  | poll (i : Nat)
  /-- `poll`: `check_errors` (request_with_state.cpp:73), with the state read before -/
  | pollErr (i : Nat) (s : RS)
  /-- returned: index, or number -/
  | ret (n : Nat)
  /-- left by an exception -/
  | thrown
  deriving DecidableEq

/-- The requests, and the call with its position (request_operations.hpp:32-97). -/
structure St where
  req : Nat → Req
  /-- the requests given to the call -/
  args : List Nat
  pc : Pc

/-- A request changes (request_with_state.hpp:36). -/
def upd (f : Nat → Req) (r : Nat) (a : Req) : Nat → Req := fun q => if q = r then a else f q

/-- The call goes on (no code of its own). -/
def goTo (s : St) (p : Pc) : St := { s with pc := p }

/-- One step of the call; `none`: it waits, or has ended (request_operations.hpp:32-37, 55-67, 73-84). -/
def callStep (s : St) : Option St :=
  match s.pc with
  | .wait i =>
    match s.args[i]? with
    | none => some (goTo s (.ret i))
    | some r => if (s.req r).st = .ready2die then some (goTo s (.check i)) else none
  | .check i =>
    match s.args[i]? with
    | none => none
    | some r => some (goTo s (if (s.req r).err then .thrown else .wait (i + 1)))
  | .cancel i n =>
    match s.args[i]? with
    | none => some (goTo s (.ret n))
    | some r =>
      if (s.req r).queued then
        some { s with req := upd s.req r { s.req r with queued := false, canceled := true, st := .ready2die }, pc := .cancel (i + 1) (n + 1) }
      else some (goTo s (.cancel (i + 1) n))
  | .poll i =>
    match s.args[i]? with
    | none => some (goTo s (.ret i))
    | some r => some (goTo s (.pollErr i (s.req r).st))
  | .pollErr i t =>
    match s.args[i]? with
    | none => none
    | some r => some (goTo s (if (s.req r).err then .thrown else if t = .op then .poll (i + 1) else .ret i))
  | .ret _ => none
  | .thrown => none

inductive Op
  | call
  /-- a worker takes the request from its queue -/
  | take (r : Nat)
  /-- the transfer (serving_request.cpp:51-58); `e`: it fails -/
  | serve (r : Nat) (e : Bool)
  /-- `state_.set_to(DONE)` (request_with_state.cpp:82) -/
  | setDone (r : Nat)
  /-- `state_.set_to(READY2DIE)` (request_with_state.cpp:89) -/
  | setReady (r : Nat)
  deriving DecidableEq

/-- A step; `none` if it is not possible (request_operations.hpp:32-97, serving_request.cpp:40-63, request_with_state.cpp:78-90). -/
def step (s : St) : Op → Option St
  | .call => callStep s
  | .take r => if (s.req r).queued then some { s with req := upd s.req r { s.req r with queued := false } } else none
  | .serve r e =>
    if (s.req r).queued = false ∧ (s.req r).served = false ∧ (s.req r).canceled = false then
      some { s with req := upd s.req r { s.req r with served := true, err := e } }
    else none
  | .setDone r =>
    if (s.req r).served ∧ (s.req r).st = .op then some { s with req := upd s.req r { s.req r with st := .done } } else none
  | .setReady r =>
    if (s.req r).st = .done then some { s with req := upd s.req r { s.req r with st := .ready2die } } else none

/-- Several steps (no code of its own). -/
def run (s : St) : List Op → Option St
  | [] => some s
  | o :: os =>
    match step s o with
    | none => none
    | some s' => run s' os

end Foxxll.ReqOps
