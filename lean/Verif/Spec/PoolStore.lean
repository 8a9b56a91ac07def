import Verif.Model.PoolStore
import Verif.Spec.Store
/-
Runs of a read/write pool on top of the store, with any number of other clients.
-/
namespace Foxxll.PoolStore
open Foxxll

/-- Other clients leave the block identifiers, the blocks and the requests of the pools alone. -/
def Foreign (own : List Mgr.Bid) (loc : Nat → Nat) (d : Store.St) : Store.Op → Prop
  | .mgr (.delete b) => b ∉ own
  | .mgr (.new _ _ _) => True
  | .fill buf _ => ∀ j, buf ≠ loc j
  | .io _ _ b buf => b ∉ own ∧ ∀ j, buf ≠ loc j
  | .cancel r => ∀ q, d.reqs r = some q → ∀ j, q.buf ≠ loc j
  | .run _ _ _ => True

/-- Rules for the client of the pools (those of `Pool.Legal`; a block keeps its size; new requests have new numbers) and for the other clients. -/
def Ev.Ok (k : Queue.Kind) (qid : Nat → Nat) (own : List Mgr.Bid) (loc : Nat → Nat) (raw : Nat) (s : Sys) : Ev → Prop
  | .call op r => Pool.Legal (s.view qid own loc) op ∧ s.d.reqs r = none
  | .fill blk data => blk ∈ s.p.uidle ∧ data.length = raw
  | .write blk bid => Pool.Legal (s.view qid own loc) (.write blk bid [] false)
  | .submit r => s.d.reqs r = none
  | .env op => Store.Allowed k qid s.d op ∧ Store.Orderly k op ∧ Foreign own loc s.d op
  | .cancel => True
  | .cancelP => True

/-- With separate queues for reads and writes: what would be canceled is finished, and no prefetch of a block is under way when the
block is written. -/
def Calm (k : Queue.Kind) (qid : Nat → Nat) (own : List Mgr.Bid) (loc : Nat → Nat) (s : Sys) : Ev → Prop
  | .cancel => k = .twoQ → ∀ blk bid i todo canc, s.act = .drop blk bid (i :: todo) canc → s.served qid i = true
  | .cancelP => k = .twoQ → ∀ i, s.act = .inval i → s.served qid i = true
  | .submit _ => k = .twoQ → ∀ blk bid todo canc, s.act = .drop blk bid todo canc →
      ∀ x ∈ (s.view qid own loc).q, x.bid = bid → x.rd = false
  | _ => True

/-- Runs.  The pools are created at any time, for allocated blocks of one size that nobody uses, with blocks that nobody uses; `P` restricts the
events. -/
inductive Run (k : Queue.Kind) (qid : Nat → Nat) (cfgs : List (Nat × Bool)) (own : List Mgr.Bid) (loc : Nat → Nat) (raw : Nat)
    (P : Sys → Ev → Prop) : Sys → Prop
  | start {d : Store.St} {h : Store.Hist} (nw np : Nat) (rid : Nat → Nat) : Store.Life k qid cfgs (Store.Orderly k) d h →
      (∀ b ∈ own, b ∈ d.m.live ∧ b.size = raw) → own.Nodup → (∀ i j, loc i = loc j → i = j) → (∀ j, (d.mem (loc j)).length = raw) →
      (∀ r q, Store.Pending qid d r → d.reqs r = some q → (∀ j, q.buf ≠ loc j) ∧
        ∀ b ∈ own, b.storage = .managed q.disk → q.off + q.size ≤ b.off ∨ b.off + b.size ≤ q.off) →
      Run k qid cfgs own loc raw P (init own loc nw np d rid)
  | next {s s' : Sys} (ev : Ev) : Run k qid cfgs own loc raw P s → ev.Ok k qid own loc raw s → P s ev →
      s.step k qid own loc ev = some s' → Run k qid cfgs own loc raw P s'

/-- No request of the pools has failed. -/
def Sys.Fine (s : Sys) : Prop := ∀ i, i < s.p.nextReq → s.rid i ∉ s.d.failed

end Foxxll.PoolStore
