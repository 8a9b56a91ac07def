/-
Model of `uint_pair<HighType>` (/repo/foxxll/common/uint_types.hpp:52-248).
`h` is the number of bits of `HighType` (8 for `uint40`, 16 for `uint48`,
lines 260 and 263).  All operators work on fixed-width words.
-/
namespace Foxxll.UInt

/-- The two members `low`, `high` (uint_types.hpp:63-65). -/
structure Pair (h : Nat) where
  low : BitVec 32
  high : BitVec h
deriving DecidableEq, Repr

namespace Pair
variable {h : Nat}

/-- `uint_pair(const uint32_t&)` (uint_types.hpp:119-121). -/
def ofU32 (a : BitVec 32) : Pair h := ⟨a, 0⟩

/-- `uint_pair(const int32_t&)` (uint_types.hpp:124-131); the `int32_t` argument is given by its
two's complement word. -/
def ofI32 (a : BitVec 32) : Pair h :=
  if 0 ≤ a.toInt then ⟨a, 0⟩ else ⟨a, BitVec.allOnes h⟩

/-- `uint_pair(const uint64_t&)` (uint_types.hpp:134-140): `none` is a failed `assert` (uint_types.hpp:139). -/
def ofU64 (a : BitVec 64) : Option (Pair h) :=
  if a >>> (32 + h) = 0 then
    some ⟨(a &&& (BitVec.allOnes 32).setWidth 64).setWidth 32,
          ((a >>> 32) &&& (BitVec.allOnes h).setWidth 64).setWidth h⟩
  else none

/-- The same constructor with `NDEBUG` (no assert) (uint_types.hpp:134-140). -/
def ofU64Release (a : BitVec 64) : Pair h :=
  ⟨(a &&& (BitVec.allOnes 32).setWidth 64).setWidth 32,
   ((a >>> 32) &&& (BitVec.allOnes h).setWidth 64).setWidth h⟩

/-- `ull()`, `u64()`, `operator uint64_t` (uint_types.hpp:143-158). -/
def u64 (x : Pair h) : BitVec 64 := (x.high.setWidth 64 <<< 32) ||| x.low.setWidth 64

/-- `operator ++` (uint_types.hpp:161-168). -/
def inc (x : Pair h) : Pair h :=
  if x.low = BitVec.allOnes 32 then ⟨0, x.high + 1⟩ else ⟨x.low + 1, x.high⟩

/-- `operator --` (uint_types.hpp:171-178). -/
def dec (x : Pair h) : Pair h :=
  if x.low = 0 then ⟨BitVec.allOnes 32, x.high - 1⟩ else ⟨x.low - 1, x.high⟩

/-- `operator +=` (uint_types.hpp:181-187). The sum of the high parts is computed in 64 bits
(the carry is a `uint64_t`) and then cast to `HighType`. -/
def add (x b : Pair h) : Pair h :=
  let s : BitVec 64 := x.low.setWidth 64 + b.low.setWidth 64
  ⟨(s &&& (BitVec.allOnes 32).setWidth 64).setWidth 32,
   (x.high.setWidth 64 + b.high.setWidth 64
      + ((s >>> 32) &&& (BitVec.allOnes h).setWidth 64)).setWidth h⟩

/-- `operator ==` (uint_types.hpp:190-193). -/
def eq (x b : Pair h) : Bool := x.low == b.low && x.high == b.high
/-- `operator !=` (uint_types.hpp:196-199). -/
def ne (x b : Pair h) : Bool := x.low != b.low || x.high != b.high
/-- `operator <` (uint_types.hpp:202-205). -/
def lt (x b : Pair h) : Bool := x.high.ult b.high || (x.high == b.high && x.low.ult b.low)
/-- `operator <=` (uint_types.hpp:208-211). -/
def le (x b : Pair h) : Bool := x.high.ult b.high || (x.high == b.high && x.low.ule b.low)
/-- `operator >` (uint_types.hpp:214-217). -/
def gt (x b : Pair h) : Bool := b.high.ult x.high || (x.high == b.high && b.low.ult x.low)
/-- `operator >=` (uint_types.hpp:220-223). -/
def ge (x b : Pair h) : Bool := b.high.ult x.high || (x.high == b.high && b.low.ule x.low)

/-- `min()` (uint_types.hpp:232-238). -/
def min : Pair h := ⟨0, 0⟩
/-- `max()` (uint_types.hpp:241-247). -/
def max : Pair h := ⟨BitVec.allOnes 32, BitVec.allOnes h⟩

end Pair
end Foxxll.UInt
