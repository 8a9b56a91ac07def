/-
Model of the contents of `typed_block` objects (/repo/foxxll/mng/typed_block.hpp) in memory, byte by byte: access to the
elements, the BIDs and the meta info of the blocks of an array, iteration, copying, and transfer of whole blocks to and from a file.
Simplifications: the array of blocks is an object that exists, so no address wraps around; a value is the list of its bytes (its object
representation); one file, which is an array of bytes, and a transfer is done at once (that queues and files behave like this is C98).
The places of the members are those of `TParams` (Model/Arith.lean).
-/
import Verif.Model.Arith

namespace Foxxll.BlockElems

open Foxxll.Arith (TParams)

/-- A member of a block that the program can use: `elem[i]` (typed_block.hpp:88), `ref[i]` (typed_block.hpp:150), `info` (typed_block.hpp:192). -/
inductive Part where
  | elem (i : Nat)
  | ref (i : Nat)
  | info
deriving DecidableEq, Repr

/-- Offset of a member in its block (typed_block.hpp:97-100, 153-156, 192). -/
def Part.off (p : TParams) (n : Nat) : Part → Nat
  | .elem i => i * p.s
  | .ref i => p.refOff n + i * 16
  | .info => p.infoOff n

/-- `sizeof` the member (typed_block.hpp:88, 150, 192). -/
def Part.len (p : TParams) : Part → Nat
  | .elem _ => p.s
  | .ref _ => 16
  | .info => p.m

/-- Is there such a member?  Arrays are indexed without a check (typed_block.hpp:99, 155); blocks without BIDs have no `ref`
(typed_block.hpp:165-180), blocks without meta info no `info` (typed_block.hpp:201-213). -/
def Part.exists (p : TParams) (n : Nat) : Part → Bool
  | .elem i => decide (i < n)
  | .ref i => decide (i < p.nref)
  | .info => decide (0 < p.m)

/-- Memory, or a file: a byte at each address. -/
abbrev Bytes := Nat → Nat

/-- The `len` bytes at `a`. -/
def peek (m : Bytes) (a len : Nat) : List Nat := (List.range len).map fun j => m (a + j)

/-- Store the bytes `v` at `a`. -/
def poke (m : Bytes) (a : Nat) (v : List Nat) : Bytes := fun x => if a ≤ x then v.getD (x - a) (m x) else m x

/-- Does offset `o` of a block belong to a member (elements, BIDs, meta info, filler) rather than to padding?  The implicit copy operations of
`typed_block` copy the members (typed_block.hpp:88, 150, 192, 221). -/
def isMember (p : TParams) (n f o : Nat) : Bool :=
  decide (o < n * p.s) || decide (p.refOff n ≤ o ∧ o < p.refOff n + 16 * p.nref) ||
  decide (p.infoOff n ≤ o ∧ o < p.infoOff n + p.m) || decide (p.dsize n ≤ o ∧ o < p.dsize n + f)

/-- `*dst = *src`, or the copy constructor, e.g. from `new_alloc::construct` (new_alloc.hpp:94-98): memberwise; padding is left alone. -/
def copyBlock (p : TParams) (n f : Nat) (m : Bytes) (dst src : Nat) : Bytes := fun x =>
  if dst ≤ x ∧ x < dst + p.raw ∧ isMember p n f (x - dst) then m (src + (x - dst)) else m x

/-- `has_only_data` (typed_block.hpp:284). -/
def hasOnlyData (p : TParams) (n : Nat) : Bool := decide (p.raw = n * p.s)

/-- `begin()` of the block at `a` (typed_block.hpp:103-118). -/
def beginIt (a : Nat) : Nat := a

/-- `end()` of the block at `a` (typed_block.hpp:121-136). -/
def endIt (p : TParams) (n a : Nat) : Nat := a + n * p.s

/-- A loop `for (it = a; it != stop; ++it)` over pointers of `pointer` type (typed_block.hpp:81-83): the addresses visited; `none` when `fuel`
steps do not suffice. -/
def walk (p : TParams) (stop : Nat) : Nat → Nat → Option (List Nat)
  | 0, _ => none
  | fuel + 1, a => if a = stop then some [] else (walk p stop fuel (a + p.s)).map (a :: ·)

/-- A BID as argument of `read` and `write`: `BID<RawSize>` has no size member (`size = none`) (typed_block.hpp:307, 321), `BID<0>` has one
(typed_block.hpp:335, 350). -/
structure Bid where
  off : Nat
  size : Option Nat := none
deriving DecidableEq, Repr

/-- What a program does with the blocks of its array; `k` is the index of a block. -/
inductive Op where
  /-- store a value in a member -/
  | set (k : Nat) (q : Part) (v : List Nat)
  /-- load the value of a member -/
  | get (k : Nat) (q : Part)
  /-- assign one block to another -/
  | copy (dst src : Nat)
  /-- `blocks[k].write(bid)` and wait -/
  | write (k : Nat) (b : Bid)
  /-- `blocks[k].read(bid)` and wait -/
  | read (k : Nat) (b : Bid)
deriving DecidableEq, Repr

/-- Memory and file. -/
structure St where
  mem : Bytes
  file : Bytes

/-- Outcome of an operation. -/
inductive Res where
  /-- done; the bytes loaded by `get` -/
  | ok (s : St) (out : List Nat)
  /-- access outside of an array -/
  | ub
  /-- `assert(bid.size >= raw_size)` failed -/
  | assertFail

/-- The array: parameters of its type, number of elements in each block, filler, address, number of blocks. -/
structure Arr where
  p : TParams
  n : Nat
  f : Nat
  base : Nat
  count : Nat

/-- Address of block `k`: `sizeof(typed_block) = raw_size` (typed_block.hpp:290-293). -/
def Arr.addr (A : Arr) (k : Nat) : Nat := A.base + k * A.p.raw

/-- The assertions of `write` and `read` with a `BID<0>` (typed_block.hpp:340, 355). -/
def sizeOk (p : TParams) (b : Bid) : Bool :=
  match b.size with
  | none => true
  | some z => decide (p.raw ≤ z)

/-- One operation: `operator []` and `operator ()` (typed_block.hpp:97-100, 153-156), `info` (typed_block.hpp:192), copying, `write`
(typed_block.hpp:307-313, 335-342: `raw_size` bytes from `this` to `bid.offset`) and `read` (typed_block.hpp:321-327, 350-357). -/
def step (A : Arr) (s : St) : Op → Res
  | .set k q v =>
    if k < A.count ∧ q.exists A.p A.n ∧ v.length = q.len A.p then
      .ok { s with mem := poke s.mem (A.addr k + q.off A.p A.n) v } []
    else .ub
  | .get k q =>
    if k < A.count ∧ q.exists A.p A.n then .ok s (peek s.mem (A.addr k + q.off A.p A.n) (q.len A.p)) else .ub
  | .copy d c =>
    if d < A.count ∧ c < A.count then .ok { s with mem := copyBlock A.p A.n A.f s.mem (A.addr d) (A.addr c) } [] else .ub
  | .write k b =>
    if k < A.count then
      if sizeOk A.p b then .ok { s with file := poke s.file b.off (peek s.mem (A.addr k) A.p.raw) } [] else .assertFail
    else .ub
  | .read k b =>
    if k < A.count then
      if sizeOk A.p b then .ok { s with mem := poke s.mem (A.addr k) (peek s.file b.off A.p.raw) } [] else .assertFail
    else .ub

/-- A program (typed_block.hpp:97-100, 153-156, 307-357): the values loaded, and the final state if no operation was wrong; it stops at the first one that is. -/
def run (A : Arr) : St → List Op → List (Op × List Nat) × Option St
  | s, [] => ([], some s)
  | s, op :: ops =>
    match step A s op with
    | .ok s' out =>
      let r := run A s' ops
      ((op, out) :: r.1, r.2)
    | _ => ([], none)

end Foxxll.BlockElems
