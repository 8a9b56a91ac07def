/-
Model of the addressable queues (/repo/foxxll/common/addressable_queues.hpp).

`std::list`/`std::set` nodes and `std::map` nodes have identities (iterators); both are
numbered by counters.  A `std::map` is a function from keys to its node; a handle (map
iterator) is the node number together with the key it exposes.  `none` stands for undefined
behaviour (dangling iterator, access to an empty container) or a failed `assert`.
-/
namespace Foxxll.AddrQ

/-- A handle: `std::map` iterator; it exposes the key (`i->first`) (addressable_queues.hpp:41, 136). -/
abbrev Handle := Nat × Nat

/-! ### `addressable_fifo_queue` (lines 28-106) -/

/-- `vals` (addressable_queues.hpp:36) as list of (node, key), `meta` (addressable_queues.hpp:37) as key ↦ (map node, list node). -/
structure Fifo where
  vals : List (Nat × Nat) := []
  index : Nat → Option (Nat × Nat) := fun _ => none
  nv : Nat := 0
  nm : Nat := 0

/-- `std::list::erase(iterator)`: undefined for a dangling iterator (used in addressable_queues.hpp:64, 78, 87). -/
def eraseNode (l : List (Nat × Nat)) (v : Nat) : Option (List (Nat × Nat)) :=
  if l.any (fun x => x.1 == v) then some (l.filter (fun x => x.1 != v)) else none

/-- Update of a map (`meta`, addressable_queues.hpp:61, 66, 79, 88, 103). -/
def upd {α : Type} (f : Nat → Option α) (k : Nat) (x : Option α) : Nat → Option α :=
  fun j => if j = k then x else f j

/-- `insert` (addressable_queues.hpp:57-68): returns the handle and whether the element is new. -/
def Fifo.insert (q : Fifo) (e : Nat) : Option (Fifo × Handle × Bool) :=
  let ei := q.nv
  let vals := q.vals ++ [(ei, e)]
  match q.index e with
  | none =>
    some ({ vals := vals, index := upd q.index e (some (q.nm, ei)), nv := q.nv + 1, nm := q.nm + 1 },
      (q.nm, e), true)
  | some (m, old) =>
    (eraseNode vals old).map fun vals' =>
      ({ q with vals := vals', index := upd q.index e (some (m, ei)), nv := q.nv + 1 }, (m, e), false)

/-- `erase(const KeyType&)` (addressable_queues.hpp:73-81). -/
def Fifo.erase (q : Fifo) (e : Nat) : Option (Fifo × Bool) :=
  match q.index e with
  | none => some (q, false)
  | some (_, v) =>
    (eraseNode q.vals v).map fun vals' => ({ q with vals := vals', index := upd q.index e none }, true)

/-- `erase(handle)` (addressable_queues.hpp:85-89); undefined if the map node is gone. -/
def Fifo.eraseH (q : Fifo) (h : Handle) : Option Fifo :=
  match q.index h.2 with
  | none => none
  | some (m, v) =>
    if m = h.1 then
      (eraseNode q.vals v).map fun vals' => { q with vals := vals', index := upd q.index h.2 none }
    else none

/-- `empty` (addressable_queues.hpp:49-50). -/
def Fifo.empty (q : Fifo) : Bool := q.vals.isEmpty

/-- `top` (addressable_queues.hpp:93-94). -/
def Fifo.top (q : Fifo) : Option Nat := q.vals.head?.map (·.2)

/-- `pop` (addressable_queues.hpp:98-105). -/
def Fifo.pop (q : Fifo) : Option (Fifo × Nat) :=
  match q.vals with
  | [] => none
  | (_, e) :: rest => some ({ q with vals := rest, index := upd q.index e none }, e)

/-! ### `addressable_priority_queue` (lines 112-200) -/

/-- `vals` (addressable_queues.hpp:131): the `std::set` in iteration order, entries (node, priority, key). -/
structure Pq (P : Type) where
  vals : List (Nat × P × Nat) := []
  index : Nat → Option (Nat × Nat) := fun _ => none
  nv : Nat := 0
  nm : Nat := 0

variable {P : Type}

/-- `cmp` (addressable_queues.hpp:115-124). -/
def cmp (lt : P → P → Bool) (l r : P × Nat) : Bool :=
  lt l.1 r.1 || (!lt r.1 l.1 && decide (l.2 < r.2))

/-- Insertion position of a new `std::set` element (addressable_queues.hpp:153). -/
def insertSorted (lt : P → P → Bool) (x : Nat × P × Nat) : List (Nat × P × Nat) → List (Nat × P × Nat)
  | [] => [x]
  | y :: l => if cmp lt y.2 x.2 then y :: insertSorted lt x l else x :: y :: l

/-- `std::set::insert`: the equivalent element if there is one, else a new node (addressable_queues.hpp:153). -/
def setInsert (lt : P → P → Bool) (vals : List (Nat × P × Nat)) (fresh : Nat) (x : P × Nat) :
    List (Nat × P × Nat) × Nat × Bool :=
  match vals.find? (fun y => !cmp lt y.2 x && !cmp lt x y.2) with
  | some y => (vals, y.1, false)
  | none => (insertSorted lt (fresh, x) vals, fresh, true)

/-- `std::set::erase(iterator)` (addressable_queues.hpp:158, 172, 181). -/
def eraseNodeP (l : List (Nat × P × Nat)) (v : Nat) : Option (List (Nat × P × Nat)) :=
  if l.any (fun x => x.1 == v) then some (l.filter (fun x => x.1 != v)) else none

/-- `insert` (addressable_queues.hpp:151-162). -/
def Pq.insert (lt : P → P → Bool) (q : Pq P) (e : Nat) (o : P) : Option (Pq P × Handle × Bool) :=
  let (vals, node, isNew) := setInsert lt q.vals q.nv (o, e)
  match q.index e with
  | none =>
    some ({ vals := vals, index := upd q.index e (some (q.nm, node)), nv := q.nv + 1, nm := q.nm + 1 },
      (q.nm, e), true)
  | some (m, old) =>
    if isNew then
      (eraseNodeP vals old).map fun vals' =>
        ({ q with vals := vals', index := upd q.index e (some (m, node)), nv := q.nv + 1 }, (m, e), false)
    else some ({ q with vals := vals, nv := q.nv + 1 }, (m, e), false)

/-- `erase(const KeyType&)` (addressable_queues.hpp:167-175). -/
def Pq.erase (q : Pq P) (e : Nat) : Option (Pq P × Bool) :=
  match q.index e with
  | none => some (q, false)
  | some (_, v) =>
    (eraseNodeP q.vals v).map fun vals' => ({ q with vals := vals', index := upd q.index e none }, true)

/-- `erase(handle)` (addressable_queues.hpp:179-183). -/
def Pq.eraseH (q : Pq P) (h : Handle) : Option (Pq P) :=
  match q.index h.2 with
  | none => none
  | some (m, v) =>
    if m = h.1 then
      (eraseNodeP q.vals v).map fun vals' => { q with vals := vals', index := upd q.index h.2 none }
    else none

/-- `empty` (addressable_queues.hpp:144-145). -/
def Pq.empty (q : Pq P) : Bool := q.vals.isEmpty

/-- `top` (addressable_queues.hpp:187-188). -/
def Pq.top (q : Pq P) : Option Nat := q.vals.head?.map (·.2.2)

/-- `pop` (addressable_queues.hpp:192-199). -/
def Pq.pop (q : Pq P) : Option (Pq P × Nat) :=
  match q.vals with
  | [] => none
  | (_, _, e) :: rest => some ({ q with vals := rest, index := upd q.index e none }, e)

end Foxxll.AddrQ
