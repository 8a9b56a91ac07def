import Verif.Model.SwapStore
import Verif.Spec.BlockScheduler
import Verif.Spec.StreamStore
/-
What the client of a block scheduler and the rest of the program may do, and what the client knows.
-/
namespace Foxxll.SwapStore
open Foxxll

/-- The calls of `Spec/BlockScheduler.lean`. -/
def Call.toOp : Call → Swap.Op (List UInt8)
  | .acquire id u => .acquire id u
  | .write id x => .write id x
  | .release id dirty pr => .release id dirty pr
  | .deinit id => .deinit id
  | .init id e => .init id e
  | .extract id => .extract id
  | .flush => .flush
  | .alloc => .alloc
  | .free id => .free id
  | .retag m l => .retag m l

/-- What the client sees when a call returns; behind a reference to an internal block it finds the content of the buffer. -/
def Ans.res (g : Cfg) (d : Store.St) : Ans → Swap.Res (List UInt8)
  | .unit => .unit
  | .int p => .data (d.mem (g.base + p))
  | .ext e => .ext e
  | .id n => .id n

/-- Block `b` contains `v`: the last write of it that was not canceled wrote `v`, is finished, and did not fail. -/
def Content (qid : Nat → Nat) (s : Store.St) (h : Store.Hist) (b : Mgr.Bid) (v : List UInt8) : Prop :=
  ∃ d w, b.storage = .managed d ∧ Store.last (s.qs (qid d)).cancelled (h.of b) = some w ∧ ¬ Store.Pending qid s w.r ∧ w.r ∉ s.failed ∧ w.data = v

/-- The number of internal blocks. -/
def Cfg.count (g : Cfg) (memory : Nat) : Nat := Swap.maxBlocks memory g.raw

/-- The rules.  Calls: those of the scheduler's client; `initialize` with a block that was set aside.  Requests have new numbers, the functor gives
an existing disk.  Set aside are the client's own blocks that contain something.  The workers may do anything; other clients (and this one, for its other
blocks and buffers) keep the rules of the store, and leave alone the scheduler's blocks and buffers. -/
def Fair (k : Queue.Kind) (qid : Nat → Nat) (memory : Nat) (g : Cfg) (s : Sys) (h : Store.Hist) (a : Swap.Abs (List UInt8)) : Ev → Prop
  | .call op => Swap.Allowed a op.toOp ∧ (∀ id e, op = .init id (some e) → e ∈ s.own) ∧ ∀ id x, op = .write id x → x.length = g.raw
  | .cmd r f o => s.d.reqs r = none ∧ f o < s.d.m.mgr.disks.length
  | .ret => True
  | .adopt b v => b ∈ s.d.m.live ∧ b.size = g.raw ∧ (∀ e ∈ s.own, s.bid e ≠ b) ∧ Content qid s.d h b v ∧
      ∀ r q, Store.Pending qid s.d r → s.d.reqs r = some q → q.write = false → ¬ q.On b
  | .drop _ => True
  | .env op => Store.Allowed k qid s.d op ∧ Store.Orderly k op ∧
      E2E.Foreign (s.own.map s.bid) g.base (g.base + g.count memory) s.d op

/-- The operation of the store in an event. -/
def Sys.store (g : Cfg) (s : Sys) : Ev → Option Store.Op
  | .cmd r f o =>
    match s.todo with
    | .new _ :: _ => some (.mgr (.new f o [⟨.null, 0, g.raw, g.raw⟩]))
    | .delete e :: _ => some (.mgr (.delete (s.bid e)))
    | .write p e :: _ => some (.io r true (s.bid e) (g.base + p))
    | .read p e :: _ => if s.rd.isNone then some (.io r false (s.bid e) (g.base + p)) else none
    | .fill p :: _ => some (.fill (g.base + p) g.dflt)
    | .put p x :: _ => some (.fill (g.base + p) x)
    | _ => none
  | .env op => some op
  | _ => none

/-- What the client knows after an event. -/
def known (g : Cfg) (s : Sys) (a : Swap.Abs (List UInt8)) : Ev → Swap.Abs (List UInt8)
  | .ret =>
    match s.cur with
    | some (op, r) => a.next op.toOp (r.res g s.d)
    | none => a
  | .adopt _ v => a.next (.client v) (.ext (some (pick s.c.live)))
  | _ => a

/-- An operation of the store that concerns blocks `bs`, or buffers with numbers from `lo` up to `hi`, and data of size `raw`. -/
def Inside (bs : List Mgr.Bid) (lo hi raw : Nat) : Store.Op → Prop
  | .mgr (.delete b) => b ∈ bs
  | .mgr (.new _ _ out) => ∀ b ∈ out, b.size = raw
  | .fill buf data => lo ≤ buf ∧ buf < hi ∧ data.length = raw
  | .io _ _ b buf => b ∈ bs ∧ lo ≤ buf ∧ buf < hi
  | .cancel _ => False
  | .run _ _ _ => False

/-- Runs of a block scheduler, created at any time, with internal blocks whose content is arbitrary. -/
inductive Run (k : Queue.Kind) (qid : Nat → Nat) (cfgs : List (Nat × Bool)) (memory : Nat) (g : Cfg) : Sys → Store.Hist → Swap.Abs (List UInt8) → Prop
  | start {d : Store.St} {h : Store.Hist} : Store.Life k qid cfgs (Store.Orderly k) d h →
      E2E.Unused qid g.base (g.base + g.count memory) d → (∀ p, p < g.count memory → (d.mem (g.base + p)).length = g.raw) →
      Run k qid cfgs memory g (Sys.init memory g d) h {}
  | next {s s' : Sys} {h : Store.Hist} {a : Swap.Abs (List UInt8)} (ev : Ev) : Run k qid cfgs memory g s h a → Fair k qid memory g s h a ev →
      s.step k qid g ev = .ok s' → Run k qid cfgs memory g s' (E2E.after s.d h (s.store g ev)) (known g s a ev)

/-- The rules, but of the rules for calls only pairing: the client does not change contents, and may release a block not dirty that it acquired
uninitialized. -/
def FairPaired (k : Queue.Kind) (qid : Nat → Nat) (memory : Nat) (g : Cfg) (s : Sys) (h : Store.Hist) (a : Swap.Abs (List UInt8)) : Ev → Prop
  | .call op => Swap.Paired a op.toOp ∧ ∀ id e, op = .init id (some e) → e ∈ s.own
  | ev => Fair k qid memory g s h a ev

/-- Runs with a client that keeps to pairing only. -/
inductive RunPaired (k : Queue.Kind) (qid : Nat → Nat) (cfgs : List (Nat × Bool)) (memory : Nat) (g : Cfg) : Sys → Store.Hist → Swap.Abs (List UInt8) → Prop
  | start {d : Store.St} {h : Store.Hist} : Store.Life k qid cfgs (Store.Orderly k) d h →
      E2E.Unused qid g.base (g.base + g.count memory) d → (∀ p, p < g.count memory → (d.mem (g.base + p)).length = g.raw) →
      RunPaired k qid cfgs memory g (Sys.init memory g d) h {}
  | next {s s' : Sys} {h : Store.Hist} {a : Swap.Abs (List UInt8)} (ev : Ev) : RunPaired k qid cfgs memory g s h a → FairPaired k qid memory g s h a ev →
      s.step k qid g ev = .ok s' → RunPaired k qid cfgs memory g s' (E2E.after s.d h (s.store g ev)) (known g s a ev)

/-- Steps that need no new call, neither of the scheduler's client nor of others: the next command, and steps of threads inside of the queues, with `os` the answers of the
operating system. -/
def Ev.Inner (os : Nat → Files.Sys) : Ev → Prop
  | .cmd _ _ _ => True
  | .env (.run _ _ os') => os' = os
  | _ => False

/-- Runs of such steps, while the client knows `a`. -/
inductive Leads (k : Queue.Kind) (qid : Nat → Nat) (memory : Nat) (g : Cfg) (a : Swap.Abs (List UInt8)) (os : Nat → Files.Sys) :
    Sys → Store.Hist → Sys → Store.Hist → Prop
  | refl (s : Sys) (h : Store.Hist) : Leads k qid memory g a os s h s h
  | next {s s' t : Sys} {h h' : Store.Hist} (ev : Ev) : ev.Inner os → Fair k qid memory g s h a ev → s.step k qid g ev = .ok s' →
      Leads k qid memory g a os s' (E2E.after s.d h (s.store g ev)) t h' → Leads k qid memory g a os s h t h'

/-- Commands still to be made, those with a request counted twice until the request is made. -/
def Sys.weight (s : Sys) : Nat := 2 * s.todo.length - (if s.rd.isSome then 1 else 0)

end Foxxll.SwapStore
