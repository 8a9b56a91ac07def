/-
Model of `timer` (/repo/foxxll/common/timer.hpp:50-159).

Times are whole microseconds (`timestamp`, 36-42, has this resolution; its conversion to double and
the rounding of the sums are left out).  Every call is one step: `accumulated` is only changed under
its mutex; `running` and `last_clock` are not protected, but are written by the owner of the timer only
(calls of the owner in two threads at once are not modelled).
-/
namespace Foxxll.Timer

/-- Members (timer.hpp:53-59). -/
structure Timer where
  running : Bool := false
  accumulated : Int := 0
  lastClock : Nat := 0
  deriving DecidableEq

/-- `start` (timer.hpp:82-86) at time `now`. -/
def start (t : Timer) (now : Nat) : Timer := { t with running := true, lastClock := now }

/-- `stop` (timer.hpp:89-96). -/
def stop (t : Timer) (now : Nat) : Timer :=
  { t with running := false, accumulated := t.accumulated + ((now : Int) - t.lastClock) }

/-- `reset` (timer.hpp:99-104). -/
def reset (t : Timer) (now : Nat) : Timer := { t with accumulated := 0, lastClock := now }

/-- `seconds`, `useconds` (timer.hpp:118-141), `mseconds` (timer.hpp:107-115), in microseconds. -/
def read (t : Timer) (now : Nat) : Int :=
  if t.running then t.accumulated + ((now : Int) - t.lastClock) else t.accumulated

/-- `operator +=` (timer.hpp:144-151); `delta` is what `seconds` of the other timer returned. -/
def add (t : Timer) (delta : Int) : Timer := { t with accumulated := t.accumulated + delta }

/-- Calls (timer.hpp:82-104, 144-151). -/
inductive Op
  | start
  | stop
  | reset
  | add (delta : Int)
  deriving DecidableEq

/-- A call at time `now` (timer.hpp:82-104, 144-151). -/
def step (t : Timer) (now : Nat) : Op → Timer
  | .start => start t now
  | .stop => stop t now
  | .reset => reset t now
  | .add d => add t d

/-- Calls with their times, in order, from a new timer; `timer(true)` (timer.hpp:75-79) is a `start`. -/
def run (t : Timer) : List (Nat × Op) → Timer
  | [] => t
  | (now, op) :: l => run (step t now op) l

end Foxxll.Timer
