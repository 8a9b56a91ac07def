import Verif.Model.SwapStore
/-
Several block schedulers in different threads, over the same block manager, queues and files.

/repo/foxxll/mng/block_scheduler.hpp, /repo/foxxll/mng/block_manager.hpp:164-268 (the block manager is locked during its calls, 170, 253).

Each scheduler is used by one thread (it has no locks of its own); the threads meet in the block manager and in the queues, whose calls are the
steps of `Model/Store.lean`.  Between two commands of one scheduler the others go on.

Simplifications: those of `Model/SwapStore.lean`; the destructor is in `Model/SwapDestroy.lean`, where other schedulers are other clients; after an exception a scheduler makes no more steps, the others go on.
-/
namespace Foxxll.SwapStore
open Foxxll

/-- The store, and the schedulers (block_scheduler.hpp:321-333); the field `d` of the latter is not used. -/
structure World where
  d : Store.St
  cl : Nat → Option Sys

/-- What happens: the constructor of scheduler `i`, an event of its thread, and steps of workers and of other clients of the store. -/
inductive Act
  | create (i : Nat)
  | go (i : Nat) (ev : Ev)
  | env (op : Store.Op)

/-- One step; scheduler `i` has `(G i).1` bytes of internal memory and sizes `(G i).2` (block_scheduler.hpp:371-378, 408-535). -/
def World.step (k : Queue.Kind) (qid : Nat → Nat) (G : Nat → Nat × Cfg) (w : World) : Act → Option World
  | .create i =>
    match w.cl i with
    | some _ => none
    | none => some { w with cl := Store.upd w.cl i (some (Sys.init (G i).1 (G i).2 w.d)) }
  | .go i ev =>
    match w.cl i with
    | none => none
    | some s =>
      match Sys.step k qid (G i).2 { s with d := w.d } ev with
      | .ok s' => some { d := s'.d, cl := Store.upd w.cl i (some s') }
      | _ => none
  | .env op => (Store.step k qid w.d op).map fun d => { w with d := d }

/-- The start, without schedulers (block_scheduler.hpp:371). -/
def World.init (d : Store.St) : World := { d := d, cl := fun _ => none }

end Foxxll.SwapStore
