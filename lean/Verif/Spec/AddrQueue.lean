/-
Specification of a queue with addressable elements: a partial map from keys to ranks and
handles.  For the FIFO queue the rank of a key is the time of its last insertion, for the
priority queue it is the priority last assigned.  `top`/`pop` may answer with any key of
minimal rank.
-/
import Verif.Model.AddrQueue

namespace Foxxll.AddrQ.Spec

inductive Op (P : Type)
  | insert (e : Nat) (o : P)
  | erase (e : Nat)
  | eraseH (h : Nat × Nat)
  | empty
  | top
  | pop
deriving Repr

inductive Out
  | ins (h : Nat × Nat) (isNew : Bool)
  | bool (b : Bool)
  | unit
  | key (k : Nat)
  /-- undefined behaviour or failed assertion -/
  | ub
deriving DecidableEq, Repr

structure State (P : Type) where
  rank : Nat → Option P := fun _ => none
  handle : Nat → Nat := fun _ => 0
  next : Nat := 0

variable {P : Type}

/-- `k` is present and no present key has a smaller rank. -/
def IsMin (lt : P → P → Bool) (s : State P) (k : Nat) : Prop :=
  ∃ p, s.rank k = some p ∧ ∀ k' p', s.rank k' = some p' → lt p' p = false

def IsEmpty (s : State P) : Prop := ∀ k, s.rank k = none

def remove (s : State P) (k : Nat) : State P :=
  { s with rank := fun j => if j = k then none else s.rank j }

/-- The allowed answers.  A handle `(id, key)` is valid while the key stays in the queue
since the insertion that reported it new. -/
inductive Step (lt : P → P → Bool) : State P → Op P → Out → State P → Prop
  | insertNew (s e o) : s.rank e = none →
      Step lt s (.insert e o) (.ins (s.next, e) true)
        { rank := fun j => if j = e then some o else s.rank j,
          handle := fun j => if j = e then s.next else s.handle j, next := s.next + 1 }
  | insertOld (s e o p) : s.rank e = some p →
      Step lt s (.insert e o) (.ins (s.handle e, e) false)
        { s with rank := fun j => if j = e then some o else s.rank j }
  | eraseNo (s e) : s.rank e = none → Step lt s (.erase e) (.bool false) s
  | eraseYes (s e p) : s.rank e = some p → Step lt s (.erase e) (.bool true) (remove s e)
  | eraseH (s h p) : s.rank h.2 = some p → s.handle h.2 = h.1 →
      Step lt s (.eraseH h) .unit (remove s h.2)
  | eraseHBad (s h) : (s.rank h.2 = none ∨ s.handle h.2 ≠ h.1) → Step lt s (.eraseH h) .ub s
  | emptyYes (s) : IsEmpty s → Step lt s .empty (.bool true) s
  | emptyNo (s) : ¬ IsEmpty s → Step lt s .empty (.bool false) s
  | top (s k) : IsMin lt s k → Step lt s .top (.key k) s
  | topBad (s) : IsEmpty s → Step lt s .top .ub s
  | pop (s k) : IsMin lt s k → Step lt s .pop (.key k) (remove s k)
  | popBad (s) : IsEmpty s → Step lt s .pop .ub s

/-- A run of the specification with its answers; it ends after undefined behaviour. -/
inductive Run (lt : P → P → Bool) : State P → List (Op P) → List Out → Prop
  | nil (s) : Run lt s [] []
  | cons {s s' op out ops outs} : Step lt s op out s' → out ≠ .ub → Run lt s' ops outs →
      Run lt s (op :: ops) (out :: outs)
  | ub {s s' op ops} : Step lt s op .ub s' → Run lt s (op :: ops) [.ub]

end Foxxll.AddrQ.Spec

namespace Foxxll.AddrQ
open Spec

/-! ### The two implementations as machines -/

/-- One call on the FIFO queue (the rank argument of `insert` is not used by the code). -/
def Fifo.call (q : Fifo) : Op Nat → Out × Fifo
  | .insert e _ => match q.insert e with | none => (.ub, q) | some (q', h, b) => (.ins h b, q')
  | .erase e => match q.erase e with | none => (.ub, q) | some (q', b) => (.bool b, q')
  | .eraseH h => match q.eraseH h with | none => (.ub, q) | some q' => (.unit, q')
  | .empty => (.bool q.empty, q)
  | .top => match q.top with | none => (.ub, q) | some k => (.key k, q)
  | .pop => match q.pop with | none => (.ub, q) | some (q', k) => (.key k, q')

def Fifo.run (q : Fifo) : List (Op Nat) → List Out
  | [] => []
  | op :: ops =>
    let (out, q') := q.call op
    if out = .ub then [.ub] else out :: q'.run ops

variable {P : Type}

/-- One call on the priority queue. -/
def Pq.call (lt : P → P → Bool) (q : Pq P) : Op P → Out × Pq P
  | .insert e o => match q.insert lt e o with | none => (.ub, q) | some (q', h, b) => (.ins h b, q')
  | .erase e => match q.erase e with | none => (.ub, q) | some (q', b) => (.bool b, q')
  | .eraseH h => match q.eraseH h with | none => (.ub, q) | some q' => (.unit, q')
  | .empty => (.bool q.empty, q)
  | .top => match q.top with | none => (.ub, q) | some k => (.key k, q)
  | .pop => match q.pop with | none => (.ub, q) | some (q', k) => (.key k, q')

def Pq.run (lt : P → P → Bool) (q : Pq P) : List (Op P) → List Out
  | [] => []
  | op :: ops =>
    let (out, q') := q.call lt op
    if out = .ub then [.ub] else out :: q'.run lt ops

/-- The operations with insertion times filled in. -/
def stamp : Nat → List (Op Nat) → List (Op Nat)
  | _, [] => []
  | t, .insert e _ :: ops => .insert e t :: stamp (t + 1) ops
  | t, op :: ops => op :: stamp (t + 1) ops

/-- Strict weak order, as required from `Cmp`. -/
structure StrictWeak (lt : P → P → Bool) : Prop where
  irrefl : ∀ a, lt a a = false
  trans : ∀ a b c, lt a b = true → lt b c = true → lt a c = true
  neg : ∀ a b c, lt a c = true → lt a b = true ∨ lt b c = true

end Foxxll.AddrQ
