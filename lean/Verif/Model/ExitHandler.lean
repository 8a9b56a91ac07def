/-
Model of the exit handlers without `atexit` (FOXXLL_NON_DEFAULT_EXIT_HANDLER):
`register_exit_handler` and `run_exit_handlers` (/repo/foxxll/common/exithandler.cpp:53-75).

Any number of threads.  A handler may register further handlers (as a destructor does that creates
a singleton, singleton.hpp:80-81) and may throw.  Locking a `std::mutex` that the thread holds itself
is modelled as waiting for ever.  `push_back` does not run out of memory.
-/
namespace Foxxll.Exit

/-- Where a thread is. -/
inductive Frame
  /-- `register_exit_handler(f)` before locking the mutex (exithandler.cpp:60) -/
  | lock (f : Nat)
  /-- before `push_back` (exithandler.cpp:61) -/
  | push (f : Nat)
  /-- before returning, which unlocks (exithandler.cpp:62) -/
  | unlock
  /-- `run_exit_handlers` before locking the mutex (exithandler.cpp:68) -/
  | runLock
  /-- before the test of the loop (exithandler.cpp:69) -/
  | loop
  /-- in handler `k` (exithandler.cpp:70), which has still to register `rest` -/
  | body (k : Nat) (rest : List Nat)
  /-- before `pop_back` (exithandler.cpp:71) -/
  | pop
  deriving DecidableEq

structure State where
  /-- `exit_handlers` (exithandler.cpp:56) -/
  handlers : List Nat
  /-- the thread that holds `exit_handler_mutex` (exithandler.cpp:55) -/
  owner : Option Nat
  /-- the calls of a thread, the innermost first -/
  stack : Nat → List Frame
  /-- record: handlers registered -/
  regs : List Nat
  /-- record: handlers called -/
  called : List Nat
  /-- record: handlers present when the mutex was locked by the run that holds it, and those called since -/
  cur : Option (List Nat × List Nat)
  /-- record: the same for the runs that returned -/
  runs : List (List Nat × List Nat)

/-- Before the first call (exithandler.cpp:55-56). -/
def init : State :=
  { handlers := [], owner := none, stack := fun _ => [], regs := [], called := [], cur := none, runs := [] }

/-- Change of the frames of one thread of exithandler.cpp:58-73. -/
def set {α : Type} (f : Nat → α) (i : Nat) (a : α) : Nat → α := fun j => if j = i then a else f j

inductive Act
  /-- a thread calls `register_exit_handler(f)` (exithandler.cpp:58) -/
  | register (t f : Nat)
  /-- a thread calls `run_exit_handlers` (exithandler.cpp:66) -/
  | runAll (t : Nat)
  /-- one step of a thread -/
  | go (t : Nat)
  /-- the handler that the thread runs throws; `lock` is destroyed -/
  | throw (t : Nat)

/-- One step; `none` if it is not possible.  `reg k` are the handlers that handler `k` registers (exithandler.cpp:58-73). -/
def step (reg : Nat → List Nat) (s : State) : Act → Option State
  | .register t f => if s.stack t = [] then some { s with stack := set s.stack t [.lock f] } else none
  | .runAll t => if s.stack t = [] then some { s with stack := set s.stack t [.runLock] } else none
  | .throw t =>
    match s.stack t with
    | .body _ _ :: .pop :: fs => some { s with owner := none, cur := none, stack := set s.stack t fs }
    | _ => none
  | .go t =>
    match s.stack t with
    | [] => none
    | .lock f :: fs =>
      if s.owner = none then some { s with owner := some t, stack := set s.stack t (.push f :: fs) } else none
    | .push f :: fs =>
      some { s with handlers := s.handlers ++ [f], regs := s.regs ++ [f], stack := set s.stack t (.unlock :: fs) }
    | .unlock :: fs => some { s with owner := none, stack := set s.stack t fs }
    | .runLock :: fs =>
      if s.owner = none then
        some { s with owner := some t, cur := some (s.handlers, []), stack := set s.stack t (.loop :: fs) }
      else none
    | .loop :: fs =>
      match s.handlers.getLast? with
      | none => some { s with owner := none, cur := none, runs := s.runs ++ s.cur.toList, stack := set s.stack t fs }
      | some k =>
        some { s with called := s.called ++ [k], cur := s.cur.map (fun c => (c.1, c.2 ++ [k])),
                      stack := set s.stack t (.body k (reg k) :: .pop :: fs) }
    | .body k (f :: r) :: fs => some { s with stack := set s.stack t (.lock f :: .body k r :: fs) }
    | .body _ [] :: fs => some { s with stack := set s.stack t fs }
    | .pop :: fs => some { s with handlers := s.handlers.dropLast, stack := set s.stack t (.loop :: fs) }

/-- A sequence of steps of exithandler.cpp:58-73. -/
def run (reg : Nat → List Nat) (s : State) : List Act → Option State
  | [] => some s
  | a :: as =>
    match step reg s a with
    | none => none
    | some s' => run reg s' as

end Foxxll.Exit
