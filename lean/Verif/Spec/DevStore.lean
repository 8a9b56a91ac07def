import Verif.Model.DevStore
import Verif.Spec.Store
import Verif.Spec.Files
/-
Rules for clients of disks with files of different kinds, and what a disk contains.
-/
namespace Foxxll.DStore
open Foxxll
open Foxxll.Store (Req Wrote Hist)

/-- The content of a block: `n` bytes at `off`; with one file per block, of the file of the block (zeros if there is none, or behind its end). -/
def Dev.block (d : Dev) (off n : Nat) : List UInt8 :=
  match d with
  | .sys f => Files.pread f off n
  | .mmap _ f => Files.pread f off n
  | .mem m => (List.range n).map fun i => (m.ptr.getD []).getD (off + i) 0
  | .fpb _ pre fs => Files.pread ((fs (Files.filenameForBlock pre off)).getD Files.emptyFile) 0 n

/-- How files are when they are opened (behind the end of a file there are only zeros; the block manager opens with CREAT | RDWR, block_manager.cpp:57). -/
def Dev.Opened : Dev → Prop
  | .sys f => ∀ i, f.size ≤ i → f.byte i = 0
  | .mmap page f => 0 < page ∧ ∀ i, f.size ≤ i → f.byte i = 0
  | .mem m => m = Files.Mem.init
  | .fpb mode _ fs => mode.rdonly = false ∧ mode.trunc = false ∧ mode.creat = true ∧ ∀ n f, fs n = some f → ∀ i, f.size ≤ i → f.byte i = 0

/-- Request `r` was made and is neither served nor canceled. -/
def Pending (qid : Nat → Nat) (s : St) (r : Nat) : Prop :=
  ∃ q, s.reqs r = some q ∧ r ∉ (s.qs (qid q.disk)).served ∧ r ∉ (s.qs (qid q.disk)).cancelled

/-- Rules for the client: those of `Store.Allowed`. -/
def Allowed (k : Queue.Kind) (qid : Nat → Nat) (s : St) : Op → Prop
  | .mgr op _ _ => op.Valid s.m ∧
      ∀ b, op = .delete b → k = .twoQ → ∀ r q, Pending qid s r → s.reqs r = some q → q.write = false → ¬ q.On b
  | .fill buf _ => ∀ r q, Pending qid s r → s.reqs r = some q → q.buf ≠ buf
  | .io r w b buf => s.reqs r = none ∧ b ∈ s.m.live ∧ (s.mem buf).length = b.size ∧
      (∀ r' q, Pending qid s r' → s.reqs r' = some q → q.buf = buf → q.write = true ∧ w = true) ∧
      (w = true → k = .twoQ → ∀ r' q, Pending qid s r' → s.reqs r' = some q → q.write = false → ¬ q.On b)
  | .cancel _ => True
  | .run _ _ _ => True

/-- The client's memory after a step. -/
def next (h : Hist) (s : St) : Op → Hist
  | .mgr (.delete b) _ _ => { h with log := h.log.filter (fun e => e.b ≠ b) }
  | .io r true b buf => { h with log := ⟨r, b, s.mem buf⟩ :: h.log }
  | .io r false b _ => { h with seen := Store.upd h.seen r (h.of b) }
  | _ => h

/-- Histories.  `files` are the files of the disks before the start, `P` restricts the steps. -/
inductive Life (k : Queue.Kind) (qid : Nat → Nat) (cfgs : List (Nat × Bool)) (files : Nat → Dev) (P : St → Op → Prop) : St → Hist → Prop
  | start {m : Mgr.Manager} {junk : Nat → UInt8} {mem : Nat → List UInt8} : Mgr.Manager.create cfgs = .ok m →
      (∀ d, (files d).Opened) → Life k qid cfgs files P (init m files junk mem) ⟨[], fun _ => []⟩
  | next {s s' : St} {h : Hist} (op : Op) : Life k qid cfgs files P s h → Allowed k qid s op → P s op → step k qid s op = some s' →
      Life k qid cfgs files P s' (next h s op)

/-- No block is deleted while a read of it is pending. -/
def Gentle (qid : Nat → Nat) (s : St) (op : Op) : Prop :=
  ∀ b junk rm, op = .mgr (.delete b) junk rm → ∀ r q, Pending qid s r → s.reqs r = some q → q.write = false → ¬ q.On b

/-- Steps later on; `P` restricts the steps. -/
inductive Later (k : Queue.Kind) (qid : Nat → Nat) (P : St → Op → Prop) (s : St) (h : Hist) : St → Hist → Prop
  | here : Later k qid P s h s h
  | next {t t' : St} {g : Hist} (op : Op) : Later k qid P s h t g → Allowed k qid t op → P t op → step k qid t op = some t' →
      Later k qid P s h t' (next g t op)

/-- Nothing is canceled in queues of the kind with separate queues for reads and writes; no block is deleted while a read of it is pending. -/
def Orderly (k : Queue.Kind) (qid : Nat → Nat) (s : St) (op : Op) : Prop :=
  (k = .twoQ → ∀ r, op ≠ .cancel r) ∧ Gentle qid s op

/-- No block is deleted while a request for it is pending, and files can be removed. -/
def Clean (qid : Nat → Nat) (s : St) (op : Op) : Prop :=
  ∀ b junk rm, op = .mgr (.delete b) junk rm → rm = false ∧ ∀ r q, Pending qid s r → s.reqs r = some q → ¬ q.On b

/-- Nothing goes wrong in the operating system during a transfer; for `mmap`, the offset is a multiple of the page size. -/
def Fine (os : Os) (off bytes : Nat) : Dev → Prop
  | .sys _ => Files.Good os.sys bytes ∧ off + bytes ≤ 2 ^ 63
  | .mmap page _ => os.mapFails = false ∧ os.unmapFails = false ∧ off % page = 0
  | .mem _ => True
  | .fpb _ _ _ => os.openFails = false ∧ os.truncFails = false ∧ Files.Good os.sys bytes ∧ bytes ≤ 2 ^ 63

end Foxxll.DStore
