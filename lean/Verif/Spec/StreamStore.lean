import Verif.Model.StreamStore
import Verif.Spec.Store
/-
Runs of the buffered streams on top of the store, with any number of other clients.
-/
namespace Foxxll.E2E
open Foxxll

variable {α : Type}

/-- The layout is that of an array of elements in the block. -/
structure Layout.Ok (L : Layout α) : Prop where
  pos : 0 < L.size
  raw : 0 < L.raw
  dec : ∀ m, m.length = L.raw → (L.dec m).length = L.size
  len : ∀ m i x, m.length = L.raw → i < L.size → (L.put m i x).length = L.raw
  put : ∀ m i x, m.length = L.raw → i < L.size → L.dec (L.put m i x) = (L.dec m).set i x

/-- Other clients leave the blocks and the buffers of the stream alone. -/
def Foreign (bs : List Mgr.Bid) (lo hi : Nat) (s : Store.St) : Store.Op → Prop
  | .mgr (.delete b) => b ∉ bs
  | .mgr (.new _ _ _) => True
  | .fill buf _ => ¬ (lo ≤ buf ∧ buf < hi)
  | .io _ _ b buf => b ∉ bs ∧ ¬ (lo ≤ buf ∧ buf < hi)
  | .cancel r => ∀ q, s.reqs r = some q → ∀ b ∈ bs, ¬ q.On b
  | .run _ _ _ => True

/-- No pending request uses the buffers. -/
def Unused (qid : Nat → Nat) (lo hi : Nat) (s : Store.St) : Prop :=
  ∀ r q, Store.Pending qid s r → s.reqs r = some q → ¬ (lo ≤ q.buf ∧ q.buf < hi)

/-- The history after an event. -/
def after (s : Store.St) (h : Store.Hist) : Option Store.Op → Store.Hist
  | none => h
  | some op => h.next s op

/-- The number of a new request is new. -/
def OEv.Fresh (d : Store.St) : OEv α → Prop
  | .work _ _ r => d.reqs r = none
  | _ => True

/-- Rules for the other clients. -/
def OEv.Fair (k : Queue.Kind) (qid : Nat → Nat) (bs : List Mgr.Bid) (lo hi : Nat) (d : Store.St) : OEv α → Prop
  | .env op => Store.Allowed k qid d op ∧ Store.Orderly k op ∧ Foreign bs lo hi d op
  | _ => True

/-- Runs of an output stream.  It is created at any time, for allocated blocks of which no read is pending, with buffers that nobody uses and whose
content is arbitrary. -/
inductive ORun (k : Queue.Kind) (qid : Nat → Nat) (cfgs : List (Nat × Bool)) (L : Layout α) (c : Stream.OCfg) (base : Nat) :
    OSys α → Store.Hist → Prop
  | start {d : Store.St} {h : Store.Hist} (bufs : Nat → List α) (bids : Nat → BufWriter.Bid) (blk : Nat) (rid : Nat → Nat) :
      Store.Life k qid cfgs (Store.Orderly k) d h → (∀ b ∈ c.bids, blockAt L.raw b ∈ d.m.live) →
      (∀ r q, Store.Pending qid d r → d.reqs r = some q → q.write = false → ∀ b ∈ c.bids, ¬ q.On (blockAt L.raw b)) →
      Unused qid base (base + c.n) d → (∀ b, b < c.n → (d.mem (base + b)).length = L.raw ∧ bufs b = L.dec (d.mem (base + b))) →
      (∀ b, (bufs b).length = L.size) → ORun k qid cfgs L c base ⟨Stream.OSt.init c bufs bids blk, d, rid⟩ h
  | next {s s' : OSys α} {h : Store.Hist} (ev : OEv α) : ORun k qid cfgs L c base s h → ev.Fresh s.d →
      ev.Fair k qid (c.bids.map (blockAt L.raw)) base (base + c.n) s.d → s.step k qid L c base ev = .ok s' →
      ORun k qid cfgs L c base s' (after s.d h (s.store L c base ev))

/-- The operation of the store in an event of the input stream. -/
def ISys.store (L : Layout α) (c : ICfg) (base : Nat) (s : ISys α) : IEv → Option Store.Op
  | .issue r =>
    match s.todo with
    | [] => none
    | b :: _ => (s.target L.raw c b).map fun bid => .io r false bid (base + b)
  | .env op => some op
  | _ => none

def IEv.Fresh (d : Store.St) : IEv → Prop
  | .issue r => d.reqs r = none
  | _ => True

def IEv.Fair (k : Queue.Kind) (qid : Nat → Nat) (bs : List Mgr.Bid) (lo hi : Nat) (d : Store.St) : IEv → Prop
  | .env op => Store.Allowed k qid d op ∧ Store.Orderly k op ∧ Foreign bs lo hi d op
  | _ => True

/-- The last write of the block that was not canceled wrote the elements `v`, and did not fail. -/
def Last (L : Layout α) (s : Store.St) (h : Store.Hist) (qid : Nat → Nat) (b : BufWriter.Bid) (v : List α) : Prop :=
  ∃ e, Store.last (s.qs (qid b.file)).cancelled (h.of (blockAt L.raw b)) = some e ∧ ¬ Store.Pending qid s e.r ∧ e.r ∉ s.failed ∧ L.dec e.data = v

/-- Runs of an input stream, created at any time for allocated blocks, with buffers that nobody uses. -/
inductive IRun (k : Queue.Kind) (qid : Nat → Nat) (cfgs : List (Nat × Bool)) (rev : Bool) (L : Layout α) (c : ICfg) (base : Nat)
    (d0 : Store.St) (h0 : Store.Hist) : ISys α → Store.Hist → Prop
  | start {s : ISys α} (blk : Nat) :
      Store.Life k qid cfgs (Store.Orderly k) d0 h0 → (∀ b ∈ c.bids, blockAt L.raw b ∈ d0.m.live) →
      Unused qid base (base + c.nread) d0 → (∀ b, b < c.nread → (d0.mem (base + b)).length = L.raw) →
      ISys.init rev L c d0 blk = some s → IRun k qid cfgs rev L c base d0 h0 s h0
  | next {s s' : ISys α} {h : Store.Hist} (ev : IEv) : IRun k qid cfgs rev L c base d0 h0 s h → ev.Fresh s.d →
      ev.Fair k qid (c.bids.map (blockAt L.raw)) base (base + c.nread) s.d → s.step k qid rev L c base ev = .ok s' →
      IRun k qid cfgs rev L c base d0 h0 s' (after s.d h (s.store L c base ev))

end Foxxll.E2E
