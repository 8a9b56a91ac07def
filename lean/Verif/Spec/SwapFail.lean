import Verif.Model.SwapFail
import Verif.Spec.BlockScheduler
/-
Specification of swappable blocks when calls fail: what the client may expect.
-/
namespace Foxxll.SwapFail
open Foxxll.Swap (St SB Op Res Abs upd)

variable {D : Type}

/-- The same state with other results. -/
def R.map {α β : Type} (f : α → FSt D → β) (r : R D α) : R D β := r.bind fun a s => .ok (f a s) s

/-- A call executed by the model; `acquire` returns the contents of the internal block. -/
def step (E : Env D) (s : FSt D) : Op D → R D (Res D)
  | .acquire id u => (acquire E s id u).map fun p s' => .data (s'.st.mem p)
  | .write id d => (lift s (Swap.write s.st id d)).map fun _ _ => .unit
  | .release id dirty pr => (release E s id dirty pr).map fun _ _ => .unit
  | .deinit id => (lift s (Swap.deinit s.st id)).map fun _ _ => .unit
  | .init id e => (lift s (Swap.initialize_ s.st id e)).map fun _ _ => .unit
  | .extract id => (extract E s id).map fun e _ => .ext e
  | .flush => (flush E s).map fun _ _ => .unit
  | .alloc => .ok (.id (Swap.alloc s.st).1) { s with st := (Swap.alloc s.st).2 }
  | .free id => (lift s (Swap.freeBlock s.st id)).map fun _ _ => .unit
  | .client d => .ok (.ext (some (clientBlock E s d).1)) (clientBlock E s d).2
  | .retag m l => if (l.map (·.2)).isPerm (s.st.evict.map (·.2)) then .ok .unit { s with st := { s.st with mode := m, evict := l } } else .ub

/-- What the client knows: as without failures, and the blocks (and external blocks of the client) hit by a failure, of which the
data are not known. -/
structure FAbs (D : Type) extends Abs D where
  lost : Nat → Bool := fun _ => false
  lostHeld : Nat → Bool := fun _ => false

/-- Blocks hit by an exception. -/
def FAbs.lose (a : FAbs D) (l : List Nat) : FAbs D := { a with lost := fun i => decide (i ∈ l) || a.lost i }

/-- The results the client may expect: as without failures, except that the data of blocks hit by a failure are not known. -/
def Expected (dflt : D) (a : FAbs D) (op : Op D) (r : Res D) : Prop :=
  match op with
  | .acquire id _ => if a.refs id = 0 ∧ a.lost id = true then ∃ d, r = .data d else Swap.Expected dflt a.toAbs op r
  | _ => Swap.Expected dflt a.toAbs op r

/-- What the client knows after a call with its result; the data of a block are known again after a dirty release or when it gets
other data. -/
def FAbs.next (a : FAbs D) (op : Op D) (r : Res D) : FAbs D :=
  match op, r with
  | .release id true _, _ => { a with toAbs := a.toAbs.next op r, lost := upd a.lost id false }
  | .deinit id, _ => { a with toAbs := a.toAbs.next op r, lost := upd a.lost id false }
  | .free id, _ => { a with toAbs := a.toAbs.next op r, lost := upd a.lost id false }
  | .init id (some e), _ => { a with toAbs := a.toAbs.next op r, lost := upd a.lost id (a.lostHeld e), lostHeld := upd a.lostHeld e false }
  | .extract id, .ext (some e) => { a with toAbs := a.toAbs.next op r, lost := upd a.lost id false, lostHeld := upd a.lostHeld e (a.lost id) }
  | .client _, .ext (some e) => { a with toAbs := a.toAbs.next op r, lostHeld := upd a.lostHeld e false }
  | _, _ => { a with toAbs := a.toAbs.next op r }

/-- Histories of a client that keeps the rules (`Swap.Allowed`), from a new block scheduler; calls may throw, and requests left behind may be
served at any time. -/
inductive Run (E : Env D) : FSt D → FAbs D → Prop
  | start (memory size : Nat) (mem disk : Nat → D) : Run E { st := Swap.init memory size mem disk } {}
  | step {s a s' r} (op : Op D) (h : Run E s a) (ha : Swap.Allowed a.toAbs op) (hs : step E s op = .ok r s') : Run E s' (a.next op r)
  | throws {s a s' hit} (op : Op D) (h : Run E s a) (ha : Swap.Allowed a.toAbs op) (hs : step E s op = .throws hit s') : Run E s' (a.lose hit)
  | late {s a s'} (i : Nat) (h : Run E s a) (hs : lateAt E s i = some s') : Run E s' a

/-- The same, where the client takes calls that throw for not made. -/
inductive Trust (E : Env D) : FSt D → Abs D → Prop
  | start (memory size : Nat) (mem disk : Nat → D) : Trust E { st := Swap.init memory size mem disk } {}
  | step {s a s' r} (op : Op D) (h : Trust E s a) (ha : Swap.Allowed a op) (hs : SwapFail.step E s op = .ok r s') : Trust E s' (a.next op r)
  | throws {s a s' hit} (op : Op D) (h : Trust E s a) (ha : Swap.Allowed a op) (hs : SwapFail.step E s op = .throws hit s') : Trust E s' a
  | late {s a s'} (i : Nat) (h : Trust E s a) (hs : lateAt E s i = some s') : Trust E s' a

end Foxxll.SwapFail
