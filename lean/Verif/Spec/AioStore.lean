import Verif.Model.AioStore
import Verif.Spec.Store
/-
What a client of disks of type linuxaio may do with blocks, requests and buffers, and what it has written.
-/
namespace Foxxll.AioStore
open Foxxll
open Foxxll.Store (Req Wrote Hist upd)

/-- Request `r` was made and its completion is not yet known to the client. -/
def Pending (qid : Nat → Nat) (s : St) (r : Nat) : Prop :=
  ∃ q, s.reqs r = some q ∧ r ∉ (s.qs (qid q.disk)).comp.map (·.1)

/-- Rules for the client.  Blocks: allocation and deletion according to the block manager's rules, transfers only
of own blocks.  Buffers: the buffer of a pending request is left alone (several pending writes may use the same buffer), its
size is that of the block. -/
def Allowed (qid : Nat → Nat) (s : St) : Op → Prop
  | .mgr op => op.Valid s.m
  | .fill buf _ => ∀ r q, Pending qid s r → s.reqs r = some q → q.buf ≠ buf
  | .io r w b buf => s.reqs r = none ∧ b ∈ s.m.live ∧ (s.mem buf).length = b.size ∧
      ∀ r' q, Pending qid s r' → s.reqs r' = some q → q.buf = buf → q.write = true ∧ w = true
  | _ => True

/-- The client waits for a write of a block before it makes another request for it, for the reads of a block before it
writes it, and for all requests for a block before it deletes it. -/
def Waits (qid : Nat → Nat) (s : St) : Op → Prop
  | .mgr (.delete b) => ∀ r q, Pending qid s r → s.reqs r = some q → ¬ q.On b
  | .io _ w b _ => ∀ r q, Pending qid s r → s.reqs r = some q → q.On b → q.write = false ∧ w = false
  | _ => True

/-- The kernel confirms no cancellation (if it does: C32). -/
def NoConfirm : Op → Prop
  | .cancel _ ok => ok = false
  | _ => True

/-- The client's memory, as in `Spec/Store.lean`. -/
def remember (h : Hist) (s : St) : Op → Hist
  | .mgr (.delete b) => { h with log := h.log.filter (fun e => e.b ≠ b) }
  | .io r true b buf => { h with log := ⟨r, b, s.mem buf⟩ :: h.log }
  | .io r false b _ => { h with seen := upd h.seen r (h.of b) }
  | _ => h

/-- Requests completed as canceled. -/
def canceled (q : Aio.St) : List Nat := (q.comp.filter (fun c => !c.2)).map (·.1)

/-- Histories.  The files of the disks exist before with any content; `P` restricts the steps. -/
inductive Life (qid : Nat → Nat) (cfgs : List (Nat × Bool)) (P : St → Op → Prop) : St → Hist → Prop
  | start {m : Mgr.Manager} {files : Nat → Files.File} {mem : Nat → List UInt8} {maxE : Nat → Nat} : Mgr.Manager.create cfgs = .ok m →
      (∀ i, 0 < maxE i) → Life qid cfgs P (init m files mem maxE) ⟨[], fun _ => []⟩
  | next {s s' : St} {h : Hist} (op : Op) : Life qid cfgs P s h → Allowed qid s op → P s op → step qid s op = some s' →
      Life qid cfgs P s' (remember h s op)

end Foxxll.AioStore
