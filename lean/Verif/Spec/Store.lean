import Verif.Model.Store
/-
What a client may do with blocks, requests and buffers, and what it has written.
-/
namespace Foxxll.Store
open Foxxll

/-- Request `r` was made and is neither served nor canceled. -/
def Pending (qid : Nat → Nat) (s : St) (r : Nat) : Prop :=
  ∃ q, s.reqs r = some q ∧ r ∉ (s.qs (qid q.disk)).served ∧ r ∉ (s.qs (qid q.disk)).cancelled

/-- The request concerns block `b`. -/
def Req.On (q : Req) (b : Mgr.Bid) : Prop := b.storage = .managed q.disk ∧ b.off = q.off ∧ b.size = q.size

/-- Rules for the client.  Blocks: allocation and deletion according to the block manager's rules, transfers only
of own blocks.  Buffers: the buffer of a pending request is left alone (several pending
writes may use the same buffer), its size is that of the block.  With the queue of the default kind (separate queues for reads and
writes), a block is neither written nor deleted while a read of it is pending. -/
def Allowed (k : Queue.Kind) (qid : Nat → Nat) (s : St) : Op → Prop
  | .mgr op => op.Valid s.m ∧
      ∀ b, op = .delete b → k = .twoQ → ∀ r q, Pending qid s r → s.reqs r = some q → q.write = false → ¬ q.On b
  | .fill buf _ => ∀ r q, Pending qid s r → s.reqs r = some q → q.buf ≠ buf
  | .io r w b buf => s.reqs r = none ∧ b ∈ s.m.live ∧ (s.mem buf).length = b.size ∧
      (∀ r' q, Pending qid s r' → s.reqs r' = some q → q.buf = buf → q.write = true ∧ w = true) ∧
      (w = true → k = .twoQ → ∀ r' q, Pending qid s r' → s.reqs r' = some q → q.write = false → ¬ q.On b)
  | .cancel _ => True
  | .run _ _ _ => True

/-- A write as the client remembers it: request, block and the content of the buffer at the call. -/
structure Wrote where
  r : Nat
  b : Mgr.Bid
  data : List UInt8

/-- The client's memory: the writes of the blocks it owns, the latest first, and for every read the writes
of its block made before it, the latest first. -/
structure Hist where
  log : List Wrote
  seen : Nat → List Wrote

def Hist.of (h : Hist) (b : Mgr.Bid) : List Wrote := h.log.filter (fun e => e.b = b)

def Hist.next (h : Hist) (s : St) : Op → Hist
  | .mgr (.delete b) => { h with log := h.log.filter (fun e => e.b ≠ b) }
  | .io r true b buf => { h with log := ⟨r, b, s.mem buf⟩ :: h.log }
  | .io r false b _ => { h with seen := upd h.seen r (h.of b) }
  | _ => h

/-- The latest write in the list that has not been canceled. -/
def last (cancelled : List Nat) (l : List Wrote) : Option Wrote := l.find? (fun e => !cancelled.contains e.r)

/-- Histories.  The files of the disks exist before with any content; `P` restricts the steps. -/
inductive Life (k : Queue.Kind) (qid : Nat → Nat) (cfgs : List (Nat × Bool)) (P : Op → Prop) : St → Hist → Prop
  | start {m : Mgr.Manager} {files : Nat → Files.File} {mem : Nat → List UInt8} : Mgr.Manager.create cfgs = .ok m →
      (∀ d i, (files d).size ≤ i → (files d).byte i = 0) → Life k qid cfgs P (init m files mem) ⟨[], fun _ => []⟩
  | next {s s' : St} {h : Hist} (op : Op) : Life k qid cfgs P s h → Allowed k qid s op → P op → step k qid s op = some s' →
      Life k qid cfgs P s' (h.next s op)

/-- Nothing is canceled in queues of the kind with separate queues for reads and writes. -/
def Orderly (k : Queue.Kind) (op : Op) : Prop := k = .twoQ → ∀ r, op ≠ .cancel r

/-- Steps later on. -/
inductive Later (k : Queue.Kind) (qid : Nat → Nat) (s : St) (h : Hist) : St → Hist → Prop
  | here : Later k qid s h s h
  | next {t t' : St} {g : Hist} (op : Op) : Later k qid s h t g → Allowed k qid t op → step k qid t op = some t' → Later k qid s h t' (g.next t op)

end Foxxll.Store
