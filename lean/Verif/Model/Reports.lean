import Verif.Model.Timer
/-
Model of `scoped_print_timer` (/repo/foxxll/common/timer.hpp:220-271) and `scoped_print_iostats` (/repo/foxxll/io/iostats.hpp:656-724, iostats.cpp:812-829).

Times are whole microseconds as in `Model/Timer.lean`; quotients of doubles are exact and only the conversion to `uint64_t` rounds (towards zero).  The counters of the
report (`to_ostream`) and their difference are the subject of C43, C99 and C100 and left out, as are texts, the writing of numbers (`format_iec_units` of tlx) and exceptions
for want of memory.  Calls are made by one thread.
-/
namespace Foxxll.Reports

/-- `static_cast<uint64_t>(static_cast<double>(bytes) / seconds)` (timer.hpp:255, 262, iostats.cpp:821-824), `us` the time in microseconds.  The conversion is undefined if
the truncated value does not fit (in particular for the infinity that division by 0 gives, `bytes` is not 0).  Negative times do not occur
(the clock is monotone). -/
def speed (bytes : Nat) (us : Int) : Option Nat :=
  if us ≤ 0 then none
  else if bytes * 10 ^ 6 / us.toNat < 2 ^ 64 then some (bytes * 10 ^ 6 / us.toNat) else none

/-- The objects: `scoped_print_timer` with its timer (timer.hpp:226-234), and `scoped_print_iostats` with `elapsed_` of `begin_` and `report_on_destruction_`
(iostats.hpp:662-674). -/
inductive Obj
  | timer (bytes : Nat) (t : Timer.Timer)
  | stats (bytes : Nat) (begin_ : Int) (onDestruction : Bool)
  | dead

/-- What a line says: `Starting`, or the end with the time and the number of bytes per second, if bytes were given.  (`scoped_print_iostats` prints `elapsed_` in
`to_ostream`, iostats.cpp:759-760.) -/
inductive Text
  | starting
  | finished (us : Int) (rate : Option Nat)
  deriving DecidableEq

/-- A line of the log, with the object and the time at which the object began to make it (the object and this time are no data of the code). -/
structure Line where
  obj : Nat
  at_ : Nat
  text : Text
  deriving DecidableEq

/-- The clock, the objects in the order of their construction, and the log. -/
structure St where
  now : Nat := 0
  objs : List Obj := []
  log : List Line := []

/-- Calls; `tick` is the passage of time, `copyStats` the implicit copy constructor of `scoped_print_iostats` (the class declares a destructor only, iostats.hpp:718-723).
`scoped_print_timer` cannot be copied (its timer has a mutex, timer.hpp:68).  `later`: the time that passes between the two calls of `seconds` (timer.hpp:255, 260). -/
inductive Op
  | tick (us : Nat)
  | newTimer (bytes : Nat)
  | endTimer (i : Nat) (later : Nat)
  | newStats (bytes : Nat)
  | copyStats (i : Nat)
  | report (i : Nat)
  | finalReport (i : Nat)
  | endStats (i : Nat)
  deriving DecidableEq

/-- How a call ends; `noObject`: the client has no such object. -/
inductive Res
  | ok (s : St)
  | ub
  | noObject

/-- Put a line in the log. -/
def St.say (s : St) (i : Nat) (t : Text) : St := { s with log := s.log ++ [⟨i, s.now, t⟩] }

/-- A new object (no code of its own). -/
def St.add (s : St) (o : Obj) : St := { s with objs := s.objs ++ [o] }

/-- `~scoped_print_timer` (timer.hpp:246-264). -/
def endTimer (s : St) (i bytes : Nat) (t : Timer.Timer) (later : Nat) : Res :=
  if bytes = 0 then .ok { s.say i (.finished (Timer.read t s.now) none) with objs := s.objs.set i .dead }
  else
    match speed bytes (Timer.read t s.now) with
    | none => .ub
    | some r => .ok { s.say i (.finished (Timer.read t (s.now + later)) (some r)) with objs := s.objs.set i .dead, now := s.now + later }

/-- `scoped_print_iostats::report` (iostats.cpp:812-829); `creation` is `creation_time_` of the statistics (iostats.hpp:324, 533), the difference is taken in
`operator -` (iostats.cpp:488). -/
def report (creation : Nat) (s : St) (i bytes : Nat) (begin_ : Int) : Res :=
  let us := ((s.now : Int) - creation) - begin_
  if bytes = 0 then .ok (s.say i (.finished us none))
  else
    match speed bytes us with
    | none => .ub
    | some r => .ok (s.say i (.finished us (some r)))

/-- One call.  Constructors: timer.hpp:237-243, iostats.hpp:684-700; `report`, `final_report` and the destructor: iostats.hpp:707-723. -/
def step (creation : Nat) (s : St) : Op → Res
  | .tick d => .ok { s with now := s.now + d }
  | .newTimer b => .ok ((s.add (.timer b (Timer.start {} s.now))).say s.objs.length .starting)
  | .newStats b => .ok ((s.add (.stats b ((s.now : Int) - creation) true)).say s.objs.length .starting)
  | .copyStats i =>
    match s.objs[i]? with
    | some (.stats b g r) => .ok (s.add (.stats b g r))
    | _ => .noObject
  | .endTimer i later =>
    match s.objs[i]? with
    | some (.timer b t) => endTimer s i b t later
    | _ => .noObject
  | .report i =>
    match s.objs[i]? with
    | some (.stats b g _) => report creation s i b g
    | _ => .noObject
  | .finalReport i =>
    match s.objs[i]? with
    | some (.stats b g _) => report creation { s with objs := s.objs.set i (.stats b g false) } i b g
    | _ => .noObject
  | .endStats i =>
    match s.objs[i]? with
    | some (.stats b g true) => report creation { s with objs := s.objs.set i .dead } i b g
    | some (.stats _ _ false) => .ok { s with objs := s.objs.set i .dead }
    | _ => .noObject

/-- The calls of a program, in order (no code of its own). -/
def run (creation : Nat) (s : St) : List Op → Res
  | [] => .ok s
  | op :: l =>
    match step creation s op with
    | .ok s' => run creation s' l
    | r => r

end Foxxll.Reports
