import Verif.Model.SwapDestroy
import Verif.Spec.SwapStore
import Verif.Spec.BlockSchedulerPolicy
/-
What is expected of the end of a block scheduler.
-/
namespace Foxxll.SwapStore
open Foxxll

/-- The identifiers the client has after an event. -/
def idsAfter (g : Cfg) (s : Sys) (used : List Nat) : Ev → List Nat
  | .ret =>
    match s.cur with
    | some (op, r) => Swap.Held used op.toOp (r.res g s.d)
    | none => used
  | _ => used

/-- Runs of a client that uses only identifiers it has; `used` are these. -/
inductive RunIds (k : Queue.Kind) (qid : Nat → Nat) (cfgs : List (Nat × Bool)) (memory : Nat) (g : Cfg) :
    Sys → Store.Hist → Swap.Abs (List UInt8) → List Nat → Prop
  | start {d : Store.St} {h : Store.Hist} : Store.Life k qid cfgs (Store.Orderly k) d h →
      E2E.Unused qid g.base (g.base + g.count memory) d → (∀ p, p < g.count memory → (d.mem (g.base + p)).length = g.raw) →
      RunIds k qid cfgs memory g (Sys.init memory g d) h {} []
  | next {s s' : Sys} {h : Store.Hist} {a : Swap.Abs (List UInt8)} {used : List Nat} (ev : Ev) : RunIds k qid cfgs memory g s h a used →
      Fair k qid memory g s h a ev → (∀ op id, ev = .call op → Swap.opId op.toOp = some id → id ∈ used) → s.step k qid g ev = .ok s' →
      RunIds k qid cfgs memory g s' (E2E.after s.d h (s.store g ev)) (known g s a ev) (idsAfter g s used ev)

/-- The block that an operation of the store returns to the block manager. -/
def deleted : Option Store.Op → List Mgr.Bid
  | some (.mgr (.delete b)) => [b]
  | _ => []

/-- Events while the destructor runs: its commands, and steps of the workers and of other clients. -/
def Ev.Final : Ev → Prop
  | .cmd _ _ _ => True
  | .env _ => True
  | _ => False

/-- The blocks returned by the destructor itself in an event. -/
def returned (g : Cfg) (t : Sys) : Ev → List Mgr.Bid
  | .cmd r f o => deleted (t.store g (.cmd r f o))
  | _ => []

/-- Runs of the destructor from the state `s`; with the blocks it has returned so far. -/
inductive Ending (k : Queue.Kind) (qid : Nat → Nat) (memory : Nat) (g : Cfg) (s : Sys) (h : Store.Hist) (a : Swap.Abs (List UInt8)) :
    Sys → Store.Hist → List Mgr.Bid → Prop
  | start {t : Sys} : s.destroy = .ok t → Ending k qid memory g s h a t h []
  | next {t t' : Sys} {h' : Store.Hist} {gone : List Mgr.Bid} (ev : Ev) : Ending k qid memory g s h a t h' gone → ev.Final → Fair k qid memory g t h' a ev →
      t.step k qid g ev = .ok t' → Ending k qid memory g s h a t' (E2E.after t.d h' (t.store g ev)) (gone ++ returned g t ev)

end Foxxll.SwapStore
