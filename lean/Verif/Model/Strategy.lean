/-
Model of the allocation strategies
(/repo/foxxll/mng/block_alloc_strategy.hpp and
/repo/foxxll/mng/block_alloc_strategy_interleaved.hpp).

Each functor is a function of the block index.  `none` stands for undefined
behaviour: `% diff_` with `diff_ == 0`, `/ nruns_` with `nruns_ == 0`, or an
out-of-bounds vector access.  Random draws are parameters.  64-bit indices are
natural numbers except in `offset_allocator`, where the addition of a possibly
negative `int` wraps modulo 2^64.
-/
namespace Foxxll.Strategy

/-- `x % d`, undefined for `d = 0` (as in block_alloc_strategy.hpp:58). -/
def mod? (x d : Nat) : Option Nat := if d = 0 then none else some (x % d)

/-- `x / d`, undefined for `d = 0` (as in block_alloc_strategy_interleaved.hpp:46). -/
def div? (x d : Nat) : Option Nat := if d = 0 then none else some (x / d)

/-- `striping::operator()` (block_alloc_strategy.hpp:56-59); `begin_`, `diff_` are
set to `begin` and `end - begin` (48-49). -/
def striping (b e : Nat) (i : Nat) : Option Nat := (mod? i (e - b)).map (b + ·)

/-- `fully_random::operator()` (block_alloc_strategy.hpp:79-82); `draw i` is the
`rng_()` value used in the call for index `i`. -/
def fullyRandom (b e : Nat) (draw : Nat → Nat) (i : Nat) : Option Nat :=
  (mod? (draw i) (e - b)).map (b + ·)

/-- `simple_random` (block_alloc_strategy.hpp:92-123): `offset = rng() % diff_` is
drawn once in the constructor (97-101). -/
def simpleRandom (b e : Nat) (draw : Nat) (i : Nat) : Option Nat :=
  (mod? draw (e - b)).bind fun offset => (mod? (i + offset) (e - b)).map (b + ·)

/-- `random_cyclic::operator()` (block_alloc_strategy.hpp:152-155); `perm` is
`perm_` after `random_shuffle` of 0..diff-1 (132-138). -/
def randomCyclic (b e : Nat) (perm : List Nat) (i : Nat) : Option Nat :=
  (mod? i (e - b)).bind fun j => (perm[j]?).map (b + ·)

/-- `single_disk` (block_alloc_strategy.hpp:196-211). -/
def singleDisk (disk : Nat) (_i : Nat) : Option Nat := some disk

/-- `offset_allocator::operator()` (block_alloc_strategy.hpp:237-240): `int` plus
`size_t` is computed modulo 2^64. -/
def offsetAllocator (base : Nat → Option Nat) (offset : Int) (i : Nat) : Option Nat :=
  base ((offset + i) % (2 ^ 64)).toNat

/-- `interleaved_striping` (block_alloc_strategy_interleaved.hpp:44-47). -/
def interleavedStriping (nruns b e : Nat) (i : Nat) : Option Nat :=
  (div? i nruns).bind fun q => (mod? q (e - b)).map (b + ·)

/-- `interleaved_fully_random` (block_alloc_strategy_interleaved.hpp:58-61). -/
def interleavedFullyRandom (b e : Nat) (draw : Nat → Nat) (i : Nat) : Option Nat :=
  (mod? (draw i) (e - b)).map (b + ·)

/-- `interleaved_simple_random` (block_alloc_strategy_interleaved.hpp:64-80);
`offsets` are the `rng() % diff_` drawn in the constructor (72-73). -/
def interleavedSimpleRandom (nruns b e : Nat) (offsets : List Nat) (i : Nat) : Option Nat :=
  (div? i nruns).bind fun q => (mod? i nruns).bind fun r =>
    (offsets[r]?).bind fun o => (mod? (q + o) (e - b)).map (b + ·)

/-- `interleaved_random_cyclic` (block_alloc_strategy_interleaved.hpp:82-103). -/
def interleavedRandomCyclic (nruns b e : Nat) (perms : List (List Nat)) (i : Nat) : Option Nat :=
  (div? i nruns).bind fun q => (mod? i nruns).bind fun r =>
    (perms[r]?).bind fun p => (mod? q (e - b)).bind fun j => (p[j]?).map (b + ·)

/-- `first_disk_only` (block_alloc_strategy_interleaved.hpp:105-115). -/
def firstDiskOnly (disk : Nat) (_i : Nat) : Option Nat := some disk

end Foxxll.Strategy
