/-
Models of the two condition-variable classes: `onoff_switch`
(/repo/foxxll/common/onoff_switch.hpp) and `shared_state`
(/repo/foxxll/common/shared_state.hpp).  A condition variable wakes a waiter when it is notified
or spuriously; a woken waiter re-acquires the mutex later (a step of its own).
-/
namespace Foxxll.Switch

/-- Position of a thread in `wait_for_on` (`want = true`, onoff_switch.hpp:64-69) or
`wait_for_off` (`want = false`, 72-77). -/
inductive Pc
  | idle
  /-- in `cond_.wait` -/
  | asleep (want : Bool)
  /-- notified, mutex not yet re-acquired -/
  | woken (want : Bool)
  | returned (want : Bool)
deriving DecidableEq, Repr

/-- `on_`, the threads, and for each waiting thread whether the switch has had the wanted value at
some moment since the call (onoff_switch.hpp:28-34). -/
structure St where
  on : Bool
  pc : Nat → Pc
  seen : Nat → Bool

inductive Op
  /-- thread `t` calls `wait_for_on` / `wait_for_off` and locks the mutex -/
  | wait (t : Nat) (want : Bool)
  /-- `on()` / `off()` (onoff_switch.hpp:48-61); `notify_one` chooses `w` (ignored if `w` does not sleep) -/
  | set (v : Bool) (w : Nat)
  /-- spurious wake-up -/
  | spurious (t : Nat)
  /-- a woken thread re-acquires the mutex and returns (no second test: `if`, not `while`) -/
  | back (t : Nat)
deriving DecidableEq, Repr

/-- The constructor (onoff_switch.hpp:38-40). -/
def init (flag : Bool) : St := { on := flag, pc := fun _ => .idle, seen := fun _ => false }

/-- One entry changes (no code of its own). -/
def upd {α : Type} (f : Nat → α) (t : Nat) (a : α) : Nat → α := fun u => if u = t then a else f u

/-- Is some thread in `cond_.wait`? (onoff_switch.hpp:68, 76). -/
def sleeps : Pc → Bool
  | .asleep _ => true
  | _ => false

/-- A waiter is notified (onoff_switch.hpp:52, 60) or wakes up spuriously. -/
def wake : Pc → Pc
  | .asleep w => .woken w
  | p => p

/-- Does `v` equal what the thread waits for? (onoff_switch.hpp:67, 75). -/
def wants (v : Bool) : Pc → Bool
  | .asleep w | .woken w => w == v
  | _ => false

/-- One step; `none`: not possible.  `notify_one` wakes a sleeping thread if there is one:
`w` must sleep unless nobody does (onoff_switch.hpp:48-77). -/
def step (s : St) : Op → Option St
  | .wait t want =>
    if s.pc t = .idle then
      if s.on = want then some { s with pc := upd s.pc t (.returned want), seen := upd s.seen t true }
      else some { s with pc := upd s.pc t (.asleep want), seen := upd s.seen t false }
    else none
  | .set v w =>
    some { s with on := v, pc := upd s.pc w (wake (s.pc w)), seen := fun u => s.seen u || wants v (s.pc u) }
  | .spurious t => if sleeps (s.pc t) then some { s with pc := upd s.pc t (wake (s.pc t)) } else none
  | .back t =>
    match s.pc t with
    | .woken w => some { s with pc := upd s.pc t (.returned w) }
    | _ => none

/-- The choice of `notify_one`: a sleeping thread if there is one (`notify_one`, onoff_switch.hpp:52, 60). -/
def Legal (s : St) : Op → Prop
  | .set _ w => sleeps (s.pc w) = true ∨ ∀ u, sleeps (s.pc u) = false
  | _ => True

/-- Reachable states; `P` restricts the steps (no code of its own). -/
inductive Reach (P : St → Op → Prop) : St → Prop
  | start (flag : Bool) : Reach P (init flag)
  | next {s s'} (op : Op) : Reach P s → Legal s op → P s op → step s op = some s' → Reach P s'

end Foxxll.Switch

namespace Foxxll.Shared

variable {V : Type}

/-- Position of a thread in `wait_for(v)` (shared_state.hpp:54-59) or `set_to` (46-52). -/
inductive Pc (V : Type)
  | idle
  /-- about to lock the mutex, or woken: the loop test comes next -/
  | test (v : V)
  /-- in `cv_.wait` -/
  | asleep (v : V)
  | returned (v : V)
  /-- in `set_to`, state written and mutex released, `notify_all` (shared_state.hpp:51) comes next -/
  | notify

/-- `state_` (shared_state.hpp:35) and the threads. -/
structure St (V : Type) where
  state : V
  pc : Nat → Pc V

/-- Calls and steps of threads (shared_state.hpp:46-59). -/
inductive Op (V : Type)
  /-- call of `wait_for(v)` -/
  | call (t : Nat) (v : V)
  /-- a return from `wait_for`, to call it again -/
  | done (t : Nat)
  /-- `set_to(v)` up to `unlock` -/
  | set (t : Nat) (v : V)
  /-- the next step of thread `t` -/
  | go (t : Nat)
  | spurious (t : Nat)

/-- One entry changes (no code of its own). -/
def upd {α : Type} (f : Nat → α) (t : Nat) (a : α) : Nat → α := fun u => if u = t then a else f u

/-- `notify_all` (shared_state.hpp:51): the waiter gets to the test of the loop (57). -/
def wake : Pc V → Pc V
  | .asleep v => .test v
  | p => p

/-- The constructor (shared_state.hpp:38-39). -/
def init (v : V) : St V := { state := v, pc := fun _ => .idle }

/-- One step; `none`: not possible (shared_state.hpp:46-59). -/
def step [DecidableEq V] (s : St V) : Op V → Option (St V)
  | .call t v => match s.pc t with
    | .idle => some { s with pc := upd s.pc t (.test v) }
    | _ => none
  | .done t => match s.pc t with
    | .returned _ => some { s with pc := upd s.pc t .idle }
    | _ => none
  | .set t v => match s.pc t with
    | .idle => some { state := v, pc := upd s.pc t .notify }
    | _ => none
  | .go t => match s.pc t with
    | .test v => some { s with pc := upd s.pc t (if v = s.state then .returned v else .asleep v) }
    | .notify => some { s with pc := upd (fun u => wake (s.pc u)) t .idle }
    | _ => none
  | .spurious t => match s.pc t with
    | .asleep v => some { s with pc := upd s.pc t (.test v) }
    | _ => none

/-- Reachable states (no code of its own). -/
inductive Reach [DecidableEq V] : St V → Prop
  | start (v : V) : Reach (init v)
  | next {s s' : St V} (op : Op V) : Reach s → step s op = some s' → Reach s'

end Foxxll.Shared
