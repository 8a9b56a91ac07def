import Verif.Model.BlockScheduler

/-
Specification of swappable blocks: what the client of a block scheduler may expect.
-/
namespace Foxxll.Swap

variable {D : Type}

/-- Calls of the client.  `release` carries the priority given to the queue of evictable blocks (constant
for online_lru, computed from the prediction for offline_lfd); `retag` is the switch to another algorithm, which
takes over the evictable blocks in any order with any priorities. -/
inductive Op (D : Type)
  | acquire (id : Nat) (uninit : Bool)
  | write (id : Nat) (d : D)
  | release (id : Nat) (dirty : Bool) (prio : SB → Nat)
  | deinit (id : Nat)
  | init (id : Nat) (e : Option Nat)
  | extract (id : Nat)
  | flush
  | alloc
  | free (id : Nat)
  | client (d : D)
  | retag (m : Mode) (l : List (Nat × Nat))

/-- Results. -/
inductive Res (D : Type)
  | unit
  | data (d : D)
  | ext (e : Option Nat)
  | id (n : Nat)
  deriving DecidableEq

/-- A call executed by the model; `acquire` returns the contents of the internal block. -/
def step (E : Env D) (s : St D) : Op D → Option (Res D × St D)
  | .acquire id u => (acquire E s id u).map fun r => (.data (r.2.mem r.1), r.2)
  | .write id d => (write s id d).map fun s' => (.unit, s')
  | .release id dirty pr => (releaseWith E s id dirty pr).map fun s' => (.unit, s')
  | .deinit id => (deinit s id).map fun s' => (.unit, s')
  | .init id e => (initialize_ s id e).map fun s' => (.unit, s')
  | .extract id => (extract E s id).map fun r => (.ext r.1, r.2)
  | .flush => (flush E s).map fun s' => (.unit, s')
  | .alloc => some (.id (alloc s).1, (alloc s).2)
  | .free id => (freeBlock s id).map fun s' => (.unit, s')
  | .client d => some (.ext (some (clientBlock E s d).1), (clientBlock E s d).2)
  | .retag m l => if (l.map (·.2)).isPerm (s.evict.map (·.2)) then some (.unit, { s with mode := m, evict := l }) else none

/-- What the client knows: for each block its data (at the last dirty release, or from outside; `none`: no
data), how often it is acquired, its present contents while it is acquired, whether they have been changed
since; and the data of the external blocks of the client. -/
structure Abs (D : Type) where
  data : Nat → Option D := fun _ => none
  refs : Nat → Nat := fun _ => 0
  work : Nat → Option D := fun _ => none
  changed : Nat → Bool := fun _ => false
  held : Nat → Option D := fun _ => none

/-- Update of a function. -/
def upd {α : Type} (f : Nat → α) (i : Nat) (x : α) : Nat → α := fun j => if j = i then x else f j

/-- The rules of the client: acquire and release in pairs; a block whose contents were changed, or
undefined because it was acquired uninitialized, is released dirty in the end; no other call on an acquired
block except acquire and release; `initialize` of a block without data, with an external block of the client. -/
def Allowed (a : Abs D) : Op D → Prop
  | .acquire _ _ => True
  | .write id _ => 0 < a.refs id
  | .release id dirty _ => 0 < a.refs id ∧ (a.refs id = 1 → a.changed id = true → dirty = true)
  | .deinit id => a.refs id = 0
  | .init id e => a.refs id = 0 ∧ a.data id = none ∧ ∀ x, e = some x → a.held x ≠ none
  | .extract id => a.refs id = 0
  | .flush => True
  | .alloc => True
  | .free id => a.refs id = 0
  | .client _ => True
  | .retag _ _ => True

/-- The results the client may expect; `dflt` is the default contents. -/
def Expected (dflt : D) (a : Abs D) : Op D → Res D → Prop
  | .acquire id u, r =>
    if 0 < a.refs id then ∃ d, a.work id = some d ∧ r = .data d
    else if u then ∃ d, r = .data d
    else r = .data ((a.data id).getD dflt)
  | .extract id, r => if a.data id = none then r = .ext none else ∃ e, r = .ext (some e) ∧ a.held e = none
  | .client _, r => ∃ e, r = .ext (some e) ∧ a.held e = none
  | .alloc, r => ∃ n, r = .id n
  | _, r => r = .unit

/-- What the client knows after a call with its result. -/
def Abs.next (a : Abs D) : Op D → Res D → Abs D
  | .acquire id u, .data d =>
    if 0 < a.refs id then { a with refs := upd a.refs id (a.refs id + 1) }
    else { a with refs := upd a.refs id 1, work := upd a.work id (some d), changed := upd a.changed id u }
  | .write id d, _ => { a with work := upd a.work id (some d), changed := upd a.changed id true }
  | .release id dirty _, _ =>
    if dirty then { a with refs := upd a.refs id (a.refs id - 1), data := upd a.data id (a.work id), changed := upd a.changed id false }
    else { a with refs := upd a.refs id (a.refs id - 1) }
  | .deinit id, _ => { a with data := upd a.data id none }
  | .free id, _ => { a with data := upd a.data id none }
  | .init id (some e), _ => { a with data := upd a.data id (a.held e), held := upd a.held e none }
  | .extract id, .ext (some e) => { a with data := upd a.data id none, held := upd a.held e (a.data id) }
  | .client d, .ext (some e) => { a with held := upd a.held e (some d) }
  | _, _ => a

/-- Histories of a client that keeps the rules, from a new block scheduler. -/
inductive Run (E : Env D) : St D → Abs D → Prop
  | start (memory size : Nat) (mem disk : Nat → D) : Run E (init memory size mem disk) {}
  | step {s a s' r} (op : Op D) (h : Run E s a) (ha : Allowed a op) (hs : step E s op = some (r, s')) : Run E s' (a.next op r)

/-- Pairing only: the client does not change the contents, and may release a block not dirty that it acquired
uninitialized. -/
def Paired (a : Abs D) : Op D → Prop
  | .write _ _ => False
  | .release id _ _ => 0 < a.refs id
  | op => Allowed a op

/-- Histories of a client that keeps to pairing only. -/
inductive RunPaired (E : Env D) : St D → Abs D → Prop
  | start (memory size : Nat) (mem disk : Nat → D) : RunPaired E (init memory size mem disk) {}
  | step {s a s' r} (op : Op D) (h : RunPaired E s a) (ha : Paired a op) (hs : step E s op = some (r, s')) : RunPaired E s' (a.next op r)

/-- The block a call is about. -/
def opId : Op D → Option Nat
  | .acquire id _ | .write id _ | .release id _ _ | .deinit id | .init id _ | .extract id | .free id => some id
  | _ => none

/-- Further calls after a state, none of them about block `id`. -/
inductive Elsewhere (E : Env D) (id : Nat) (s : St D) (a : Abs D) : St D → Abs D → Prop
  | nil : Elsewhere E id s a s a
  | step {t b t' r} (op : Op D) (h : Elsewhere E id s a t b) (ho : opId op ≠ some id) (ha : Allowed b op) (hs : Swap.step E t op = some (r, t')) :
      Elsewhere E id s a t' (b.next op r)

/-- Any history of calls that did not fail, from a new block scheduler with `max` internal blocks; the only
rule is that `initialize` is called with external blocks of the client. -/
inductive Hist (E : Env D) (max : Nat) : St D → Prop
  | start (memory size : Nat) (mem disk : Nat → D) (h : max = maxBlocks memory size) : Hist E max (init memory size mem disk)
  | step {s s' r} (op : Op D) (h : Hist E max s) (ha : ∀ id e, op = .init id (some e) → e ∈ s.held) (hs : step E s op = some (r, s')) : Hist E max s'

/-- Number of acquired blocks. -/
def acquiredCount (s : St D) : Nat := ((List.range s.n).filter fun id => (s.blocks id).isAcquired).length

/-- Number of blocks with an internal block. -/
def attachedCount (s : St D) : Nat := ((List.range s.n).filter fun id => (s.blocks id).isInternal).length

/-! ### Simulation and execution of a recorded sequence -/

/-- The operation the simulation records for a call. -/
def Op.recorded : Op D → Option (POp × Nat)
  | .acquire id u => some (if u then .acquireUninit else .acquire, id)
  | .release id dirty _ => some (if dirty then .releaseDirty else .release, id)
  | .deinit id => some (.deinit, id)
  | .free id => some (.deinit, id)
  | .init id _ => some (.init, id)
  | .extract id => some (.extract, id)
  | _ => none

/-- The same call in simulation mode; `free_swappable_block` (486-490) calls `deinitialize`. -/
def Sim.step (m : Sim) : Op D → Sim
  | .acquire id u => m.acquire id u
  | .release id dirty _ => m.release id dirty
  | .deinit id => m.deinit id
  | .free id => m.deinit id
  | .init id _ => m.init id
  | .extract id => m.extract id
  | _ => m

/-- The same calls online and in simulation mode, with the calls made; `tick` is
`explicit_timestep` (899-900). -/
inductive Both (E : Env D) (s0 : St D) (a0 : Abs D) : St D → Abs D → Sim → List (Op D) → Prop
  | start : Both E s0 a0 s0 a0 (Sim.start s0) []
  | tick {s a m l} (h : Both E s0 a0 s a m l) : Both E s0 a0 s a m.timestep l
  | step {s a m l s' r} (op : Op D) (h : Both E s0 a0 s a m l) (ha : Allowed a op) (hv : ∀ id, op ≠ .init id none)
      (hs : Swap.step E s op = some (r, s')) : Both E s0 a0 s' (a.next op r) (m.step op) (l ++ [op])

/-- An operation of a recorded sequence executed by offline_lfd; `e` is the argument of `initialize`. -/
def Lfd.exec (E : Env D) (f : Lfd D) (e : Option Nat) : POp → Nat → Option (Lfd D)
  | .acquire, id => (Swap.acquire E f.st id false).map fun r => { f with st := r.2 }
  | .acquireUninit, id => (Swap.acquire E f.st id true).map fun r => { f with st := r.2 }
  | .release, id => f.release E id false
  | .releaseDirty, id => f.release E id true
  | .deinit, id => (Swap.deinit f.st id).map fun s => { f with st := s }
  | .init, id => (initialize_ f.st id e).map fun s => { f with st := s }
  | .extract, id => (Swap.extract E f.st id).map fun r => { f with st := r.2 }

/-- Execution of a recorded sequence, from any state of the scheduler; `Exec E f rest`: the sequence `rest`
is still to come.  Calls that are not recorded may come in between. -/
inductive Exec (E : Env D) (max : Nat) : Lfd D → List Elem → Prop
  | start {s} (seq : List Elem) (h : Hist E max s) : Exec E max (Lfd.start s seq) seq
  | exec {f x rest f'} (e : Option Nat) (h : Exec E max f (x :: rest)) (hh : ∀ b, x.op = .init → e = some b → b ∈ f.st.held)
      (hx : f.exec E e x.op x.id = some f') : Exec E max f' rest
  | other {f rest s' r} (op : Op D) (h : Exec E max f rest) (ho : op.recorded = none) (hr : ∀ m l, op ≠ .retag m l)
      (hs : Swap.step E f.st op = some (r, s')) : Exec E max { f with st := s' } rest

/-- The next operation with a block that is not a release. -/
def nextOp (rest : List Elem) (id : Nat) : Option Elem :=
  rest.find? fun x => x.id == id && x.op != .release && x.op != .releaseDirty

/-- When the block is acquired, if this is the next operation with it. -/
def nextAcquire (rest : List Elem) (id : Nat) : Option Nat :=
  (nextOp rest id).bind fun x => if x.op = .acquire ∨ x.op = .acquireUninit then some x.time else none

end Foxxll.Swap
