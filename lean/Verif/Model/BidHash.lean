/-
Model of the table of busy blocks of `prefetch_pool` (/repo/foxxll/mng/prefetch_pool.hpp:43-67): the hash function of block identifiers, their comparison
(/repo/foxxll/mng/bid.hpp:94-102), and a `std::unordered_map` with these.
Simplifications: the `unordered_map` is a list of buckets, each a list of entries, as the standard describes it; when it rehashes is up to the program.
The values are of any type; `size_t` and pointers have `w` bits.
-/

namespace Foxxll.BidHash

/-- `BID<Size>` with `Size` not 0 (bid.hpp:38-50): the address of the file, and the offset, which is `uint64_t`. -/
structure Bid where
  storage : Nat
  offset : Nat
deriving DecidableEq, Repr

/-- `operator ==` (bid.hpp:94-97). -/
def Bid.eq (a b : Bid) : Bool := a.storage == b.storage && a.offset == b.offset

/-- `bid_hash` (prefetch_pool.hpp:43-51): a sum of `size_t`, modulo `2^w`. -/
def bidHash (w : Nat) (b : Bid) : Nat :=
  (b.storage % 2 ^ w + b.offset % 2 ^ 32 % 2 ^ w + b.offset / 2 ^ 32 % 2 ^ w) % 2 ^ w

/-- The comparison of `bid_hash` with Microsoft's compiler (prefetch_pool.hpp:53-56). -/
def bidLess (a b : Bid) : Bool := decide (a.storage < b.storage) || (a.storage == b.storage && decide (a.offset < b.offset))

/-- `unordered_map_type` (prefetch_pool.hpp:65). -/
abbrev Table (V : Type) := List (List (Bid × V))

/-- The bucket of a key: the hash modulo the number of buckets (prefetch_pool.hpp:43-51, 65). -/
def slot {V : Type} (w : Nat) (t : Table V) (b : Bid) : Nat := bidHash w b % t.length

/-- `find` (prefetch_pool.hpp:246, 265, 272, 303, 324): the entry of the bucket that is equal. -/
def find {V : Type} (w : Nat) (t : Table V) (b : Bid) : Option V := ((t.getD (slot w t b) []).find? fun x => x.1.eq b).map (·.2)

/-- `busy_blocks[bid] = v` (prefetch_pool.hpp:189, 231, 236): the entry is replaced, if there is one. -/
def insert {V : Type} (w : Nat) (t : Table V) (b : Bid) (v : V) : Table V :=
  t.modify (slot w t b) fun l => if l.any fun x => x.1.eq b then l.map fun x => if x.1.eq b then (x.1, v) else x else (b, v) :: l

/-- `erase` of the entry found for `b` (prefetch_pool.hpp:258, 317, 333). -/
def erase {V : Type} (w : Nat) (t : Table V) (b : Bid) : Table V := t.modify (slot w t b) fun l => l.eraseP fun x => x.1.eq b

/-- All entries in the order of iteration (prefetch_pool.hpp:112-117). -/
def entries {V : Type} (t : Table V) : List (Bid × V) := t.flatten

/-- `size` (prefetch_pool.hpp:126, 138). -/
def size {V : Type} (t : Table V) : Nat := (entries t).length

/-- An entry is put into its bucket of a table (prefetch_pool.hpp:65). -/
def place {V : Type} (w : Nat) (t : Table V) (x : Bid × V) : Table V := t.modify (slot w t x.1) (x :: ·)

/-- The table gets `n` buckets (prefetch_pool.hpp:65; when is up to the library). -/
def rehash {V : Type} (w n : Nat) (t : Table V) : Table V := (entries t).foldl (place w) (List.replicate n [])

/-- Calls of the pool (prefetch_pool.hpp:126-333), and rehashing by the library. -/
inductive Op (V : Type)
  | find (b : Bid)
  | insert (b : Bid) (v : V)
  | erase (b : Bid)
  | size
  | rehash (n : Nat)

/-- Answers of these (prefetch_pool.hpp:126-333). -/
inductive Ans (V : Type)
  | none
  | found (v : Option V)
  | size (n : Nat)
deriving DecidableEq, Repr

/-- One call (prefetch_pool.hpp:126-333).  A table has at least one bucket. -/
def step {V : Type} (w : Nat) (t : Table V) : Op V → Ans V × Table V
  | .find b => (.found (find w t b), t)
  | .insert b v => (.none, insert w t b v)
  | .erase b => (.none, erase w t b)
  | .size => (.size (size t), t)
  | .rehash n => (.none, rehash w (n + 1) t)

/-- A program from an empty table with `n + 1` buckets (prefetch_pool.hpp:73, 81-87). -/
def run {V : Type} (w : Nat) : Table V → List (Op V) → List (Ans V) × Table V
  | t, [] => ([], t)
  | t, op :: l =>
    let r := step w t op
    let q := run w r.2 l
    (r.1 :: q.1, q.2)

end Foxxll.BidHash
