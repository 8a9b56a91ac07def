/-
Model of the prefetch scheduling (/repo/foxxll/mng/async_schedule.cpp).

The priority queue of simulation events orders by time stamp only; which of several events
with the least time stamp `top()` returns is unspecified and is decided by an oracle.
`tlx::simple_vector<bool> disk_busy(D + 1)` (line 89) is not initialised: its initial
contents are a parameter.
-/
namespace Foxxll.Sched

/-- `sim_event` (async_schedule.cpp:39-44): (timestamp, iblock). -/
abbrev Event := Nat × Nat

/-- `get_disk` (async_schedule.cpp:63-70); `none` in the list is `file::DEFAULT_DEVICE_ID`.  The result `none`
is an out-of-bounds access or the failed `assert(disk <= D)`. -/
def getDisk (disks : List (Option Nat)) (D i : Nat) : Option Nat :=
  match disks[i]? with
  | none => none
  | some none => some D
  | some (some d) => if d ≤ D then some d else none

/-- Local variables of `simulate_async_write` (async_schedule.cpp:82-89); `log` lists the (block, time) pairs
in the order in which they are stored to `o_time` (async_schedule.cpp:123). -/
structure Sim where
  i : Nat
  oldtime : Nat
  queues : Nat → List Nat
  busy : Nat → Bool
  events : List Event
  log : List (Nat × Nat)

/-- Assignment to an element of `disk_queues` or `disk_busy` (async_schedule.cpp:83, 89). -/
def setFn {α : Type} (f : Nat → α) (k : Nat) (v : α) : Nat → α := fun j => if j = k then v else f j

/-- The fill loop (async_schedule.cpp:91-97); `m` counts down. -/
def fill (disks : List (Option Nat)) (D : Nat) : Nat → Nat → (Nat → List Nat) → Option (Nat × (Nat → List Nat))
  | 0, i, q => some (i, q)
  | _ + 1, 0, q => some (0, q)
  | m + 1, i + 1, q =>
    match getDisk disks D i with
    | none => none
    | some d => fill disks D m i (setFn q d (q d ++ [i]))

/-- The loop over `ii = 0..D` that schedules the first block of every disk (async_schedule.cpp:99-106); `n` disks
remain, the current one is `ii`. -/
def kick : Nat → Nat → (Nat → List Nat) → List Event → (Nat → List Nat) × List Event
  | 0, _, q, ev => (q, ev)
  | n + 1, ii, q, ev =>
    match q ii with
    | [] => kick n (ii + 1) q ev
    | j :: rest => kick n (ii + 1) (setFn q ii rest) (ev ++ [(1, j)])

/-- `event_queue.top(); pop()` (async_schedule.cpp:110-111): some event with least time stamp, chosen by `c`. -/
def popMin (c : Nat) (evs : List Event) : Option (Event × List Event) :=
  let cand := evs.filter (fun e => evs.all (fun e' => decide (e.1 ≤ e'.1)))
  match cand[c % cand.length]? with
  | none => none
  | some e => some (e, evs.erase e)

/-- The `if (i > 0)` part of the loop body (async_schedule.cpp:125-149), at time `t`. -/
def advance (disks : List (Option Nat)) (D t : Nat) (s : Sim) : Option Sim :=
  match s.i with
  | 0 => some s
  | i + 1 =>
    match getDisk disks D i with
    | none => none
    | some d =>
      if s.busy d then
        some { s with queues := setFn s.queues d (s.queues d ++ [i]), i := i }
      else
        match s.queues d with
        | j :: rest =>
          some { s with events := s.events ++ [(t + 1, j)], queues := setFn s.queues d rest,
                        busy := setFn s.busy d true }
        | [] =>
          some { s with events := s.events ++ [(t + 1, i)], i := i, busy := setFn s.busy d true }

/-- "add next block to write" (async_schedule.cpp:152-160) after block `b` was put out at time `t`. -/
def refill (disks : List (Option Nat)) (D t b : Nat) (s : Sim) : Option Sim :=
  match getDisk disks D b with
  | none => none
  | some d =>
    if s.busy d then some s
    else match s.queues d with
      | [] => some s
      | j :: rest =>
        some { s with events := s.events ++ [(t + 1, j)], queues := setFn s.queues d rest,
                      busy := setFn s.busy d true }

/-- One iteration of the main loop (async_schedule.cpp:108-161) for the popped event `cur`; `rest` are the
remaining events. -/
def iter (disks : List (Option Nat)) (D : Nat) (s : Sim) (cur : Event) (rest : List Event) : Option Sim :=
  let s1 : Sim :=
    { s with events := rest,
             busy := if s.oldtime ≠ cur.1 then fun _ => false else s.busy,
             oldtime := cur.1,
             log := s.log ++ [(cur.2, cur.1)] }
  match advance disks D cur.1 s1 with
  | none => none
  | some s2 => refill disks D cur.1 cur.2 s2

/-- Results of the main loop (async_schedule.cpp:108-165). -/
inductive SimOut
  /-- a failed `assert` or out-of-bounds access -/
  | fail
  /-- the loop did not end within the fuel -/
  | running
  | done (log : List (Nat × Nat))
deriving DecidableEq, Repr

/-- The main loop with the final asserts (async_schedule.cpp:108-165). -/
def loop (disks : List (Option Nat)) (D : Nat) (choice : Nat → Nat) : Nat → Sim → SimOut
  | 0, _ => .running
  | fuel + 1, s =>
    match popMin (choice s.log.length) s.events with
    | none => if s.i = 0 ∧ (List.range (D + 1)).all (fun d => (s.queues d).isEmpty) then .done s.log else .fail
    | some (cur, rest) =>
      match iter disks D s cur rest with
      | none => .fail
      | some s' => loop disks D choice fuel s'

/-- The state in front of the main loop (async_schedule.cpp:81-106). -/
def start (disks : List (Option Nat)) (m D : Nat) (busy0 : Nat → Bool) : Option Sim :=
  match fill disks D m disks.length (fun _ => []) with
  | none => none
  | some (i, q) =>
    let (q', ev) := kick (D + 1) 0 q []
    some { i := i, oldtime := 0, queues := q', busy := busy0, events := ev, log := [] }

/-- `simulate_async_write` (async_schedule.cpp:72-168); `L = disks.length`.  The fuel `L + 1` is shown to be
sufficient. -/
def simulate (disks : List (Option Nat)) (m D : Nat) (busy0 : Nat → Bool) (choice : Nat → Nat) : SimOut :=
  if disks.length < D then .fail
  else match start disks m D busy0 with
    | none => .fail
    | some s => loop disks D choice (disks.length + 1) s

/-- The array `write_order` after the simulation (async_schedule.cpp:190-192): entry `b` is the pair stored for
block `b`; entries never stored are value-initialised pairs. -/
def writeOrder (L : Nat) (log : List (Nat × Nat)) : List (Nat × Nat) :=
  (List.range L).map fun b => (log.find? (fun p => p.1 == b)).getD (0, 0)

/-- `compute_prefetch_schedule` (async_schedule.cpp:172-210); `none` is a failed assert (or non-termination, which
is excluded by the theorems).  `std::stable_sort` with `write_time_cmp` (async_schedule.cpp:55-61, 199). -/
def computeSchedule (disks : List (Option Nat)) (m D : Nat) (busy0 : Nat → Bool) (choice : Nat → Nat) :
    Option (List Nat) :=
  if disks.length ≤ D then some (List.range disks.length)
  else match simulate disks m D busy0 choice with
    | .done log =>
      some (((writeOrder disks.length log).mergeSort (fun a b => decide (a.2 ≥ b.2))).map (·.1))
    | _ => none

end Foxxll.Sched
