/-
Model of `wait_any` (/repo/foxxll/io/request_operations.hpp:103-143) with
`request_with_waiters` (/repo/foxxll/io/request_with_waiters.cpp): any number of requests, of
calls of `wait_any` (each with its own `onoff_switch` on the stack, named by the call), and the
threads that complete the requests.  Every section under a mutex is one step.

Of a request only what concerns waiters is modelled: `error_` set, state DONE or READY2DIE set,
`notify_waiters` executed, and the set `waiters_`; the order of these is that of
serving_request.cpp:51-62 and request_with_state.cpp:57-60, 82-86.
-/
namespace Foxxll.WaitAny

/-- A request (request_with_waiters.hpp:32, request.hpp:56, request_with_state.hpp:36). -/
structure Req where
  /-- `error_` is set -/
  err : Bool
  /-- the state is DONE or READY2DIE -/
  done : Bool
  /-- `notify_waiters` has been executed -/
  notified : Bool
  /-- `waiters_`, a set of switches -/
  waiters : List Nat
deriving DecidableEq, Repr

/-- Position of a call; line numbers of request_operations.hpp. -/
inductive Pc
  | idle
  /-- `add_waiter` for request number `i` (request_operations.hpp:112-114) -/
  | add (i : Nat)
  /-- request `res` is finished: `delete_waiter` for request number `j` (request_operations.hpp:119-125) -/
  | undo (j res : Nat)
  /-- `check_errors` (request_operations.hpp:127) -/
  | chk (res : Nat)
  /-- `sw.wait_for_on()` (request_operations.hpp:133): test -/
  | test
  /-- in `cond_.wait` -/
  | asleep
  /-- `delete_waiter` for request number `i` (request_operations.hpp:137) -/
  | del (i : Nat) (res : Option Nat)
  /-- `poll` for request number `i` (request_operations.hpp:138) -/
  | pol (i : Nat) (res : Option Nat)
  /-- returned; `none` is `reqs_end` -/
  | ret (res : Option Nat)
  /-- left by an exception -/
  | thrown
deriving DecidableEq, Repr

/-- State: requests, calls with their arguments, switches (request_operations.hpp:104-110). -/
structure St where
  req : Nat → Req
  /-- the requests passed to call `t` -/
  args : Nat → List Nat
  pc : Nat → Pc
  on : Nat → Bool

/-- How a step ends; `switch.on()` of a waiter is request_with_waiters.cpp:50-53. -/
inductive Res (σ : Type)
  | ok (s : σ)
  | blocked
  /-- use of a destroyed switch -/
  | ub

/-- Requests in state OP without waiters (request_with_state.hpp:39-46). -/
def init (args : Nat → List Nat) : St :=
  { req := fun _ => ⟨false, false, false, []⟩, args := args, pc := fun _ => .idle, on := fun _ => false }

/-- One entry changes (no code of its own). -/
def upd {α : Type} (f : Nat → α) (t : Nat) (a : α) : Nat → α := fun u => if u = t then a else f u

/-- The switch of the call exists (request_operations.hpp:108). -/
def alive : Pc → Bool
  | .idle | .ret _ | .thrown => false
  | _ => true

/-- The position of a call in request_operations.hpp:104-143. -/
def setPc (s : St) (t : Nat) (p : Pc) : St := { s with pc := upd s.pc t p }

/-- `waiters_.insert` (request_with_waiters.cpp:36). -/
def insertW (s : St) (r t : Nat) : St :=
  { s with req := upd s.req r { s.req r with waiters := if t ∈ (s.req r).waiters then (s.req r).waiters else t :: (s.req r).waiters } }

/-- `delete_waiter` (request_with_waiters.cpp:41-45). -/
def deleteW (s : St) (r t : Nat) : St :=
  { s with req := upd s.req r { s.req r with waiters := (s.req r).waiters.filter (fun u => u != t) } }

/-- One step of call `t`; an exception destroys the switch and leaves `waiters_` as they are (request_operations.hpp:104-143, request_with_waiters.cpp:23-45). -/
def callStep (s : St) (t : Nat) : Res St :=
  match s.pc t with
  | .idle => .ok { s with pc := upd s.pc t (.add 0), on := upd s.on t false }
  | .add i =>
    match (s.args t)[i]? with
    | none => .ok (setPc s t .test)
    | some r =>
      if (s.req r).err then .ok (setPc s t .thrown)
      else if (s.req r).done then .ok (setPc s t (if i = 0 then .chk i else .undo (i - 1) i))
      else .ok (setPc (insertW s r t) t (.add (i + 1)))
  | .undo j res =>
    match (s.args t)[j]? with
    | none => .blocked
    | some r => .ok (setPc (deleteW s r t) t (if j = 0 then .chk res else .undo (j - 1) res))
  | .chk res =>
    match (s.args t)[res]? with
    | none => .blocked
    | some r => .ok (setPc s t (if (s.req r).err then .thrown else .ret (some res)))
  | .test => .ok (setPc s t (if s.on t then .del 0 none else .asleep))
  | .asleep => if s.on t then .ok (setPc s t (.del 0 none)) else .blocked
  | .del i res =>
    match (s.args t)[i]? with
    | none => .ok (setPc s t (.ret res))
    | some r => .ok (setPc (deleteW s r t) t (if res = none then .pol i res else .del (i + 1) res))
  | .pol i res =>
    match (s.args t)[i]? with
    | none => .blocked
    | some r =>
      if (s.req r).err then .ok (setPc s t .thrown)
      else .ok (setPc s t (.del (i + 1) (if (s.req r).done then some i else res)))
  | .ret _ => .blocked
  | .thrown => .blocked

inductive Op
  | call (t : Nat)
  /-- spurious wake-up of call `t` -/
  | spurious (t : Nat)
  /-- `error_occured` (serving_request.cpp:57) -/
  | fail (r : Nat)
  /-- `state_.set_to(DONE)` -/
  | setDone (r : Nat)
  /-- `notify_waiters` (request_with_waiters.cpp:47-54) -/
  | notify (r : Nat)
deriving DecidableEq, Repr

/-- One step of a call (request_operations.hpp:104-143) or of a thread that completes a request (request_with_state.cpp:82-86). -/
def step (s : St) : Op → Res St
  | .call t => callStep s t
  | .spurious t => if s.pc t = .asleep then .ok (setPc s t (.del 0 none)) else .blocked
  | .fail r => if (s.req r).done then .blocked else .ok { s with req := upd s.req r { s.req r with err := true } }
  | .setDone r => if (s.req r).done then .blocked else .ok { s with req := upd s.req r { s.req r with done := true } }
  | .notify r =>
    if (s.req r).done && !(s.req r).notified then
      if (s.req r).waiters.all (fun t => alive (s.pc t)) then
        .ok { s with req := upd s.req r { s.req r with notified := true },
                     on := fun t => s.on t || (s.req r).waiters.contains t }
      else .ub
    else .blocked

/-- Reachable states; `P` restricts the steps (no code of its own). -/
inductive Reach (P : Op → Prop) : St → Prop
  | start (args : Nat → List Nat) : Reach P (init args)
  | next {s s'} (op : Op) : Reach P s → P op → step s op = .ok s' → Reach P s'

end Foxxll.WaitAny
