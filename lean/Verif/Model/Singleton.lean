/-
Model of `singleton` (/repo/foxxll/singleton.hpp) with the default exit handlers
(/repo/foxxll/common/exithandler.cpp:34-44: `atexit`, handlers run last in first out).

Any number of threads call `get_instance` of any singletons; every line that reads or writes shared
data is one step.  `instance_` is a plain `volatile` pointer read without the mutex: formally a data
race, here (as on the usual machines) an atomic access.  All singletons are destroyed on exit (the
default, used by all four classes of the library).  What matters of an object is its identity, which
singletons its constructor and its destructor call `get_instance` of, and whether the constructor
throws.
-/
namespace Foxxll.Single

/-- Value of `instance_` (singleton.hpp:67, 91, 97): null, an object with its number, `size_t(-1)`. -/
inductive Ptr
  | null
  | obj (k : Nat)
  | bomb
  deriving DecidableEq

/-- Where a call of `get_instance` of singleton `i` is. -/
inductive Frame
  /-- before `if (!instance_)` (singleton.hpp:43) -/
  | test (i : Nat)
  /-- before locking the mutex (singleton.hpp:77) -/
  | lock (i : Nat)
  /-- before the second test (singleton.hpp:78), the mutex is locked -/
  | again (i : Nat)
  /-- in the constructor (singleton.hpp:79), which has still to call `get_instance` of `rest` -/
  | ctor (i : Nat) (rest : List Nat)
  /-- before `register_exit_handler` (singleton.hpp:80-81) -/
  | register (i : Nat)
  /-- before returning from `create_instance`, which unlocks the mutex (singleton.hpp:83) -/
  | ret (i : Nat)
  deriving DecidableEq

/-- `instance_`, `singleton_mutex_` (singleton.hpp:66-69) of all singletons, the functions registered by `atexit` (exithandler.cpp:35-38), and the calls of the threads. -/
structure State where
  inst : Nat → Ptr
  /-- the thread that holds the mutex of a singleton -/
  owner : Nat → Option Nat
  /-- registered singletons, the last one first -/
  handlers : List Nat
  /-- the calls of a thread, the innermost first -/
  stack : Nat → List Frame
  /-- record: constructors that returned, as singleton and object -/
  built : List (Nat × Nat)
  /-- record: pointers returned to constructors and threads, as singleton and pointer -/
  got : List (Nat × Ptr)

/-- Start of the program (singleton.hpp:95-100). -/
def init : State :=
  { inst := fun _ => .null, owner := fun _ => none, handlers := [], stack := fun _ => [], built := [], got := [] }

/-- One entry changes, as in singleton.hpp:79. -/
def set {α : Type} (f : Nat → α) (i : Nat) (a : α) : Nat → α := fun j => if j = i then a else f j

inductive Act
  /-- a thread that is not in `get_instance` calls it (singleton.hpp:41) -/
  | call (t i : Nat)
  /-- one step of a thread -/
  | go (t : Nat)
  /-- the constructor that the thread runs throws an exception -/
  | throw (t : Nat)

/-- The thread of an action (no code of its own). -/
def Act.thread : Act → Nat
  | .call t _ => t
  | .go t => t
  | .throw t => t

/-- An exception leaves all constructors of the thread: their locks are released
(`unique_lock`, singleton.hpp:77). -/
def unwind (owner : Nat → Option Nat) : List Frame → Nat → Option Nat
  | [] => owner
  | .ctor i _ :: fs => unwind (set owner i none) fs
  | _ :: fs => unwind owner fs

/-- One step; `none` if it is not possible (the thread is not in `get_instance`, or waits for a
mutex - also for one it holds itself).  `dep i` are the calls of the constructor of `i` (singleton.hpp:41-84). -/
def step (dep : Nat → List Nat) (s : State) : Act → Option State
  | .call t i =>
    if s.stack t = [] then some { s with stack := set s.stack t [.test i] } else none
  | .throw t =>
    match s.stack t with
    | .ctor i r :: fs => some { s with owner := unwind s.owner (.ctor i r :: fs), stack := set s.stack t [] }
    | _ => none
  | .go t =>
    match s.stack t with
    | [] => none
    | .test i :: fs =>
      if s.inst i = .null then some { s with stack := set s.stack t (.lock i :: fs) }
      else some { s with stack := set s.stack t fs, got := s.got ++ [(i, s.inst i)] }
    | .lock i :: fs =>
      if s.owner i = none then some { s with owner := set s.owner i (some t), stack := set s.stack t (.again i :: fs) }
      else none
    | .again i :: fs =>
      if s.inst i = .null then some { s with stack := set s.stack t (.ctor i (dep i) :: fs) }
      else some { s with stack := set s.stack t (.ret i :: fs) }
    | .ctor i (j :: r) :: fs => some { s with stack := set s.stack t (.test j :: .ctor i r :: fs) }
    | .ctor i [] :: fs =>
      some { s with inst := set s.inst i (.obj s.built.length), built := s.built ++ [(i, s.built.length)],
                    stack := set s.stack t (.register i :: fs) }
    | .register i :: fs => some { s with handlers := i :: s.handlers, stack := set s.stack t (.ret i :: fs) }
    | .ret i :: fs =>
      some { s with owner := set s.owner i none, stack := set s.stack t fs, got := s.got ++ [(i, s.inst i)] }

/-- Several steps (no code of its own). -/
def run (dep : Nat → List Nat) (s : State) : List Act → Option State
  | [] => some s
  | a :: as =>
    match step dep s a with
    | none => none
    | some s' => run dep s' as

/-- End of the program (exithandler.cpp:35-38, singleton.hpp:86-93). -/
inductive Exit
  /-- the singletons destroyed, in order -/
  | ok (l : List Nat)
  /-- the destructor of `i` uses the invalid pointer of singleton `j` -/
  | ub (i j : Nat)
  /-- the destructor of `i` would create singleton `j`; not modelled further -/
  | creates (i j : Nat)
  deriving DecidableEq

/-- First singleton of the list that is not an object (test of `get_instance` in destructors, singleton.hpp:43-46). -/
def missing (inst : Nat → Ptr) : List Nat → Option Nat
  | [] => none
  | j :: js =>
    match inst j with
    | .obj _ => missing inst js
    | _ => some j

/-- The exit handlers, each of them `destroy_instance` (singleton.hpp:86-93): the pointer becomes
invalid, then the destructor runs, which calls `get_instance` of `use i`. -/
def exit (use : Nat → List Nat) (inst : Nat → Ptr) : List Nat → Exit
  | [] => .ok []
  | i :: is =>
    let inst' := set inst i .bomb
    match missing inst' (use i) with
    | some j => if inst' j = .bomb then .ub i j else .creates i j
    | none =>
      match exit use inst' is with
      | .ok l => .ok (i :: l)
      | e => e

/-- The singletons of the library: config, stats, disk_queues, block_manager (config.hpp:114). -/
def CONFIG : Nat := 0
/-- `stats` (iostats.hpp:319). -/
def STATS : Nat := 1
/-- `disk_queues` (disk_queues.hpp:39). -/
def QUEUES : Nat := 2
/-- `block_manager` (block_manager.hpp:54). -/
def MANAGER : Nat := 3

/-- Calls of the constructors of the library: `disk_queues` (disk_queues.cpp:26-29) and
`block_manager` (block_manager.cpp:33-83) with `n` disks, for each of them `create_file`
(create_file.cpp:63-70), the constructor of `file` (file.hpp:95-100) and `make_queue`. -/
def libDep (n : Nat) (i : Nat) : List Nat :=
  if i = QUEUES then [STATS]
  else if i = MANAGER then CONFIG :: (List.replicate n [CONFIG, STATS, QUEUES]).flatten
  else []

/-- Calls of the destructors of the library: `~disk_queues` (disk_queues.cpp:31-37) serves the
requests that are left (request_queue_impl_qwqr.cpp:150-153, 220-226), each of which uses the
statistics (iostats.cpp:59, 85, 112, 138); the others call none. -/
def libUse (i : Nat) : List Nat := if i = QUEUES then [STATS] else []

end Foxxll.Single
