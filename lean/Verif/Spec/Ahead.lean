import Verif.Model.Ahead
import Verif.Spec.BlockScheduler

/-
Specification of offline_lru_prefetching: the client executes a recorded sequence of calls and may expect the same
results as with the other algorithms (`Swap.Allowed`, `Swap.Expected`).
-/
namespace Foxxll.Ahead
open Foxxll.Swap (SB Env POp Elem Op Res Abs Allowed Expected)

variable {D : Type}

/-- A call executed by the model; `acquire` returns the contents of the internal block. -/
def step (E : Env D) (s : St D) : Op D → Option (Res D × St D)
  | .acquire id u => (acquire E s id u).map fun r => (.data (r.2.b.mem r.1), r.2)
  | .write id d => (Swap.write s.b id d).map fun b => (.unit, { s with b := b })
  | .release id dirty _ => (release E s id dirty).map fun s' => (.unit, s')
  | .deinit id => (deinit E s id).map fun s' => (.unit, s')
  | .init id e => (initialize_ E s id e).map fun s' => (.unit, s')
  | .extract id => (extract s id).map fun r => (.ext r.1, r.2)
  | .flush => (flush E s).map fun s' => (.unit, s')
  | .alloc => (alloc s).map fun r => (.id r.1, r.2)
  | .free id => (freeBlock E s id).map fun s' => (.unit, s')
  | .client d => some (.ext (some (Swap.clientBlock E s.b d).1), { s with b := (Swap.clientBlock E s.b d).2 })
  | .retag _ _ => none

/-- The calls of a sequence with one block. -/
def callsOf (l : List Elem) (id : Nat) : List POp := (l.filter fun x => x.id == id).map (·.op)

/-- The block is extracted before it is written, deinitialized or initialized again. -/
def ReadOut (l : List POp) : Prop := ∃ u v, l = u ++ .extract :: v ∧ ∀ o ∈ u, o = .acquire ∨ o = .acquireUninit ∨ o = .release

/-- The block is acquired or deinitialized. -/
def Uses (l : List POp) : Prop := ∃ o ∈ l, o = .acquire ∨ o = .acquireUninit ∨ o = .deinit

/-- After a release of a block that will be extracted without change, the block is neither acquired nor deinitialized
any more in this sequence. -/
def Tidy (seq : List Elem) : Prop :=
  ∀ u x v, seq = u ++ x :: v → x.op = .release ∨ x.op = .releaseDirty → ReadOut (callsOf v x.id) → ¬ Uses (callsOf v x.id)

/-- A sequence the partial results are about: the blocks exist, and blocks to be extracted are not used between. -/
def Plain (n : Nat) (seq : List Elem) : Prop := (∀ x ∈ seq, x.id < n) ∧ Tidy seq

/-- The algorithm in use: online_lru or offline_lfd; or offline_lru_prefetching, where `flush` may have been called. -/
inductive Stage (D : Type)
  | online (b : Swap.St D)
  | ahead (flushed : Bool) (s : St D)

def isFlush : Op D → Bool
  | .flush => true
  | _ => false

/-- Histories of a client that keeps the rules, from a new block scheduler.  The scheduler is used online, switched to
prefetching with a recorded sequence, switched back, and so on; `Q` restricts the sequences.  The progress of the
I/O threads, in `orc`, is arbitrary. -/
inductive Life (E : Env D) (Q : Nat → List Elem → Prop) : Stage D → Abs D → Prop
  | new (memory size : Nat) (mem disk : Nat → D) : Life E Q (.online (Swap.init memory size mem disk)) {}
  | online {b a b' r} (op : Op D) (h : Life E Q (.online b) a) (ha : Allowed a op) (hs : Swap.step E b op = some (r, b')) :
      Life E Q (.online b') (a.next op r)
  | start {b a s} (seq : List Elem) (orc : List (List Disk)) (h : Life E Q (.online b) a) (hq : Q b.n seq) (hs : start E b seq orc = some s) :
      Life E Q (.ahead false s) a
  | step {f s a s' r} (op : Op D) (h : Life E Q (.ahead f s) a) (ha : Allowed a op) (hs : step E s op = some (r, s')) :
      Life E Q (.ahead (f || isFlush op) s') (a.next op r)
  | stop {f s a b} (h : Life E Q (.ahead f s) a) (hs : toOnline s = some b) : Life E Q (.online b) a

/-- The call is the next one of the recorded sequence. -/
def Predicted (s : St D) (op : Op D) : Prop := ∃ x l, s.pred = x :: l ∧ op.recorded = some (x.op, x.id)

/-- Sequences about existing blocks, without further restriction. -/
def Known (n : Nat) (seq : List Elem) : Prop := ∀ x ∈ seq, x.id < n

/-- Number of blocks for which an internal block is reserved. -/
def reservedCount (s : St D) : Nat := ((List.range s.b.n).filter fun c => ((s.sched c).bind (·.reserved)).isSome).length

/-- The scheduled operations with a block, the next one first. -/
def scheduled (s : St D) (c : Nat) : List POp := ((s.sched c).map (·.ops)).getD []

end Foxxll.Ahead
