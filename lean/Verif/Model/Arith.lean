/-
Model of the arithmetic helpers: `aligned_alloc`/`aligned_dealloc`
(/repo/foxxll/common/aligned_alloc.hpp), the layout of `typed_block`
(/repo/foxxll/mng/typed_block.hpp) and `div_ceil`, `longhash1`,
`round_up_to_power_of_two` (/repo/foxxll/common/utils.hpp).
-/
namespace Foxxll.Arith

/-! ### utils.hpp -/

/-- `div_ceil` (utils.hpp:61-73); `d = 0` is undefined behaviour. -/
def divCeil (n d : Nat) : Option Nat :=
  if d = 0 then none else some (n / d + (if n % d ≠ 0 then 1 else 0))

/-- `round_up_to_power_of_two` (utils.hpp:96-106) for `Integral = uint64_t`;
shifting by 64 or more is undefined behaviour. -/
def roundUpPow2 (n : BitVec 64) (power : Nat) : Option (BitVec 64) :=
  if power < 64 then
    let pot : BitVec 64 := 1#64 <<< power
    let mask := pot - 1#64
    some (if n &&& mask ≠ 0#64 then (n &&& ~~~mask) + pot else n)
  else none

/-- `longhash1` (utils.hpp:75-86). -/
def longhash1 (k0 : BitVec 64) : BitVec 64 :=
  let k1 := k0 + ~~~(k0 <<< 32)
  let k2 := k1 ^^^ (k1 >>> 22)
  let k3 := k2 + ~~~(k2 <<< 13)
  let k4 := k3 ^^^ (k3 >>> 8)
  let k5 := k4 + (k4 <<< 3)
  let k6 := k5 ^^^ (k5 >>> 15)
  let k7 := k6 + ~~~(k6 <<< 27)
  k7 ^^^ (k7 >>> 31)

/-! ### aligned_alloc.hpp -/

/-- `sizeof(char*)` on the 64-bit platforms considered (aligned_alloc.hpp:59, 80). -/
def ptrSize : Nat := 8

/-- A successful allocation: the C heap block `[buffer, buffer+len)` that is kept and the
pointer given to the user (aligned_alloc.hpp:36-45). -/
structure Chunk where
  buffer : Nat
  len : Nat
  result : Nat
deriving DecidableEq, Repr

inductive AOut
  /-- `std::bad_alloc` (aligned_alloc.hpp:75-76) -/
  | badAlloc
  /-- a failed `assert` (aligned_alloc.hpp:89, 104) -/
  | assertFail
  /-- the `realloc` moved the block: free it and call again with realloc disabled (aligned_alloc.hpp:96-103) -/
  | retry
  | done (c : Chunk)
deriving DecidableEq, Repr

/-- Where the user pointer is placed (aligned_alloc.hpp:80-82). -/
def placeResult (A metaSize buffer : Nat) : Nat :=
  let reserve := buffer + ptrSize + metaSize
  reserve + A - reserve % A - metaSize

/-- One activation of `aligned_alloc<A>(size, meta)` (aligned_alloc.hpp:48-118), `malloc` variant (aligned_alloc.hpp:59-60).
`buffer` is what `malloc` returns (0 = null), `realloced` what `realloc` returns.
Sizes do not overflow. -/
def attempt (A size metaSize : Nat) (mayRealloc : Bool) (buffer realloced : Nat) : AOut :=
  let allocSize := A + ptrSize + metaSize + size
  if buffer = 0 then .badAlloc
  else
    let result := placeResult A metaSize buffer
    if result < buffer + ptrSize then .assertFail
    else
      let reallocSize := (result - buffer) + metaSize + size
      if reallocSize < allocSize ∧ mayRealloc = true then
        if buffer ≠ realloced then .retry
        else if buffer + reallocSize < result + size then .assertFail
        else .done ⟨buffer, reallocSize, result⟩
      else .done ⟨buffer, allocSize, result⟩

/-- The recursion of line 102; `oracle` lists what `malloc` and `realloc` return in
successive activations, `none` means the list was too short (aligned_alloc.hpp:96-103). -/
def alignedAlloc (A size metaSize : Nat) : Bool → List (Nat × Nat) → Option AOut
  | _, [] => none
  | mayRealloc, (b, r) :: rest =>
    match attempt A size metaSize mayRealloc b r with
    | .retry => alignedAlloc A size metaSize false rest
    | o => some o

/-- The `posix_memalign` variant (70-75, then the same code);  `buffer` is a multiple of `A` (aligned_alloc.hpp:70-76, 80-117). -/
def attemptMemalign (A size metaSize : Nat) (mayRealloc : Bool) (buffer realloced : Nat) : AOut :=
  let allocSize := A * ((ptrSize + metaSize) / A + (if (ptrSize + metaSize) % A ≠ 0 then 1 else 0)) + size
  if buffer = 0 then .badAlloc
  else
    let result := placeResult A metaSize buffer
    if result < buffer + ptrSize then .assertFail
    else
      let reallocSize := (result - buffer) + metaSize + size
      if reallocSize < allocSize ∧ mayRealloc = true then
        if buffer ≠ realloced then .retry
        else if buffer + reallocSize < result + size then .assertFail
        else .done ⟨buffer, reallocSize, result⟩
      else .done ⟨buffer, allocSize, result⟩

/-- Byte memory (the memory that aligned_alloc.hpp:107, 126 access). -/
abbrev Mem := Nat → Nat

/-- Store a pointer, little endian: `*(reinterpret_cast<char**>(result) - 1) = buffer` (aligned_alloc.hpp:107). -/
def storePtr (m : Mem) (addr v : Nat) : Mem := fun a =>
  if addr ≤ a ∧ a < addr + ptrSize then v / 256 ^ (a - addr) % 256 else m a

/-- Little-endian number in the `n` bytes at `addr` (aligned_alloc.hpp:126). -/
def loadBytes (m : Mem) (addr : Nat) : Nat → Nat
  | 0 => 0
  | n + 1 => loadBytes m addr n + 256 ^ n * m (addr + n)

/-- Load a pointer (aligned_alloc.hpp:126). -/
def loadPtr (m : Mem) (addr : Nat) : Nat := loadBytes m addr ptrSize

/-- `aligned_dealloc` (aligned_alloc.hpp:120-131): the address handed to `free`, `none` for a null pointer. -/
def alignedDealloc (m : Mem) (ptr : Nat) : Option Nat :=
  if ptr = 0 then none else some (loadPtr m (ptr - ptrSize))

/-! ### typed_block.hpp -/

/-- Next multiple of the alignment (C++ object layout) (used for the members of typed_block.hpp:88, 150, 192, 221). -/
def roundUp (x a : Nat) : Nat := (x + a - 1) / a * a

/-- The parameters of a `typed_block<RawSize, Type, NRef, MetaInfoType>`: raw size, size and
alignment of `Type`, number of BIDs, size and alignment of the meta info (0 and 1 for
`void`).  `sizeof(BID<RawSize>) = 16` with alignment 8 (typed_block.hpp:265-267). -/
structure TParams where
  raw : Nat
  s : Nat
  aT : Nat
  nref : Nat
  m : Nat
  aM : Nat
deriving DecidableEq, Repr

namespace TParams

/-- Number of elements (typed_block.hpp:185 and 203); `none` when the subtraction would wrap
around (the array is then too large to compile). -/
def size (p : TParams) : Option Nat :=
  if 16 * p.nref + p.m ≤ p.raw ∧ 0 < p.s then some ((p.raw - 16 * p.nref - p.m) / p.s) else none

/-- Offset of the BID array (typed_block.hpp:150) after the elements (typed_block.hpp:88). -/
def refOff (p : TParams) (n : Nat) : Nat := if p.nref = 0 then n * p.s else roundUp (n * p.s) 8
/-- Offset of the meta info (typed_block.hpp:192). -/
def infoOff (p : TParams) (n : Nat) : Nat := roundUp (p.refOff n + 16 * p.nref) p.aM
/-- End of the data of `block_w_info` (without tail padding). -/
def dsize (p : TParams) (n : Nat) : Nat := p.infoOff n + p.m
/-- Alignment of the whole block. -/
def align (p : TParams) : Nat := max (max p.aT p.aM) (if p.nref = 0 then 1 else 8)
/-- `sizeof(block_w_info<…>)`. -/
def baseSize (p : TParams) (n : Nat) : Nat := roundUp (p.dsize n) p.align
/-- Filler bytes (typed_block.hpp:245): `RawSize - sizeof(Type)`; a wrap-around does not compile. -/
def filler (p : TParams) (n : Nat) : Option Nat :=
  if p.baseSize n ≤ p.raw then some (p.raw - p.baseSize n) else none
/-- `sizeof(typed_block)`: the filler array is placed in the tail padding of its base
(which is not a POD) (typed_block.hpp:216-229, 245, 291). -/
def sizeOf (p : TParams) (n f : Nat) : Nat :=
  if f = 0 then p.baseSize n else roundUp (p.dsize n + f) p.align

/-- Does the instantiation compile, i.e. are all sizes representable and does the
`static_assert(sizeof(typed_block) == raw_size)` (typed_block.hpp:290-293) hold?  Returns the number of
elements and filler bytes. -/
def accept (p : TParams) : Option (Nat × Nat) :=
  match p.size with
  | none => none
  | some n =>
    match p.filler n with
    | none => none
    | some f => if p.sizeOf n f = p.raw then some (n, f) else none

end TParams

/-- `typed_block::operator new[]` (typed_block.hpp:376-391): `bytes` is the array plus the compiler's cookie;
returns the size and meta size handed to `aligned_alloc`. -/
def newArrayArgs (raw bytes : Nat) : Nat × Nat := (bytes - bytes % raw, bytes % raw)

end Foxxll.Arith
