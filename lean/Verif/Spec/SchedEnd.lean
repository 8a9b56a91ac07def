import Verif.Model.SchedEnd
import Verif.Spec.BlockSchedulerPolicy
import Verif.Spec.Ahead

/-
Specification of simulation runs with the real scheduler behind them, and of their repetition.
-/
namespace Foxxll.Swap

variable {D : Type}

/-- Calls in simulation mode from the state `s0`, of a client that has the identifiers `used0` at the start, with the
identifiers it has now and the calls made with their results.  The client uses only identifiers it has. -/
inductive SimRun (E : Env D) (s0 : St D) (used0 : List Nat) : St D → Sim → List Nat → List (Op D × Res D) → Prop
  | start : SimRun E s0 used0 (toSim s0) (Sim.start s0) used0 []
  | tick {s m used l} (h : SimRun E s0 used0 s m used l) : SimRun E s0 used0 s m.timestep used l
  | step {s m used l r s' m'} (op : Op D) (h : SimRun E s0 used0 s m used l) (hu : ∀ id, opId op = some id → id ∈ used)
      (hs : simStep E s m op = some (r, s', m')) : SimRun E s0 used0 s' m' (Held used op r) (l ++ [(op, r)])

/-- Calls from the state `s0`, with their results; `used` as in `SimRun`. -/
inductive OpRun (E : Env D) (s0 : St D) (used0 : List Nat) : St D → List Nat → List (Op D × Res D) → Prop
  | start : OpRun E s0 used0 s0 used0 []
  | step {s used l r s'} (op : Op D) (h : OpRun E s0 used0 s used l) (hu : ∀ id, opId op = some id → id ∈ used)
      (ha : ∀ id e, op = .init id (some e) → e ∈ s.held) (hs : Swap.step E s op = some (r, s')) : OpRun E s0 used0 s' (Held used op r) (l ++ [(op, r)])

/-- The calls about identifiers: allocation (`none`) and release of an identifier. -/
def idCall : Op D → Option (Option Nat)
  | .alloc => some none
  | .free id => some (some id)
  | _ => none

/-- The identifiers allocated in the course of a list of calls. -/
def allocated (l : List (Op D × Res D)) : List Nat :=
  l.filterMap fun x =>
    match x.2 with
    | .id n => some n
    | _ => none

/-- External blocks of the scheduler's acquired blocks. -/
def acquiredExt (s : St D) : List Nat :=
  (List.range s.n).filterMap fun i => if (s.blocks i).isAcquired then (s.blocks i).ext else none

end Foxxll.Swap

namespace Foxxll.Ahead
open Foxxll.Swap (Env Elem Op Res Abs Allowed)

variable {D : Type}

/-- Calls with offline_lru_prefetching from the state `s0`, with their results, of a client that uses only identifiers it has. -/
inductive CallRun (E : Env D) (s0 : St D) (used0 : List Nat) : St D → List Nat → List (Op D × Res D) → Prop
  | start : CallRun E s0 used0 s0 used0 []
  | step {s used l r s'} (op : Op D) (h : CallRun E s0 used0 s used l) (hu : ∀ id, Swap.opId op = some id → id ∈ used)
      (hs : step E s op = some (r, s')) : CallRun E s0 used0 s' (Swap.Held used op r) (l ++ [(op, r)])

/-- `Life`, of a client that uses only identifiers it has; `used` are these. -/
inductive LifeIds (E : Env D) (Q : Nat → List Elem → Prop) : Stage D → Abs D → List Nat → Prop
  | new (memory size : Nat) (mem disk : Nat → D) : LifeIds E Q (.online (Swap.init memory size mem disk)) {} []
  | online {b a used b' r} (op : Op D) (h : LifeIds E Q (.online b) a used) (hu : ∀ id, Swap.opId op = some id → id ∈ used) (ha : Allowed a op)
      (hs : Swap.step E b op = some (r, b')) : LifeIds E Q (.online b') (a.next op r) (Swap.Held used op r)
  | start {b a used s} (seq : List Elem) (orc : List (List Disk)) (h : LifeIds E Q (.online b) a used) (hq : Q b.n seq) (hs : start E b seq orc = some s) :
      LifeIds E Q (.ahead false s) a used
  | step {f s a used s' r} (op : Op D) (h : LifeIds E Q (.ahead f s) a used) (hu : ∀ id, Swap.opId op = some id → id ∈ used) (ha : Allowed a op)
      (hs : step E s op = some (r, s')) : LifeIds E Q (.ahead (f || isFlush op) s') (a.next op r) (Swap.Held used op r)
  | stop {f s a used b} (h : LifeIds E Q (.ahead f s) a used) (hs : toOnline s = some b) : LifeIds E Q (.online b) a used

end Foxxll.Ahead
