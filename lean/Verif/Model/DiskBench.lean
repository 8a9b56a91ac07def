import Verif.Model.Arith
import Verif.Model.Strategy
/-
Model of the tools `benchmark_disks` (/repo/tools/benchmark_disks.cpp) and `benchmark_disks_random`
(/repo/tools/benchmark_disks_random.cpp): which blocks are transferred.

Simplifications: no overflow of `size_t`; no exceptions (they end the loops, benchmark_disks.cpp:232-235,
benchmark_disks_random.cpp:214-217); times only as oracle for the time limit.
-/
namespace Foxxll.DiskBench

/-- How a tool ends (benchmark_disks.cpp:264, benchmark_disks_random.cpp:51-55). -/
inductive Outcome (α : Type)
  /-- division by zero -/
  | undefined
  /-- message and return code -1 -/
  | refused
  /-- not finished within the fuel -/
  | running
  | done (a : α)
deriving Repr, DecidableEq

/-! ### benchmark_disks -/

/-- One iteration of the loop over the batches: `offset`, `current_batch_size`, `current_num_blocks_per_batch`,
`num_total_blocks`, and whether the blocks are transferred (`offset >= start_offset`) (benchmark_disks.cpp:124-147). -/
structure Batch where
  offset : Nat
  bytes : Nat
  nblocks : Nat
  first : Nat
  moved : Bool
deriving Repr, DecidableEq

/-- The loop (benchmark_disks.cpp:124-230): `late k` tells whether the time limit is exceeded after iteration `k` (228; not looked at in skipped
batches, 146-147); `total` is `bids.size()`. -/
def batches (endpos start batch raw : Nat) (late : Nat → Bool) : Nat → Nat → Nat → Nat → Outcome (List Batch)
  | 0, _, _, _ => .running
  | fuel + 1, k, offset, total =>
    if offset < endpos then
      let bytes := min batch (endpos - offset)
      match Arith.divCeil bytes raw with
      | none => .undefined
      | some n =>
        let b : Batch := { offset, bytes, nblocks := n, first := total, moved := decide (start ≤ offset) }
        if b.moved && late k then .done [b]
        else match batches endpos start batch raw late fuel (k + 1) (offset + bytes) (total + n) with
          | .done l => .done (b :: l)
          | o => o
    else .done []

/-- `endpos` (benchmark_disks.cpp:67-70). -/
def endOf (size start : Nat) : Nat := if size = 0 then 2 ^ 64 - 1 else start + size

/-- `num_blocks_per_batch` (benchmark_disks.cpp:85-91): blocks per batch, `D` the number of disks. -/
def perBatch (D batch raw : Nat) : Option Nat := Arith.divCeil (raw * (if batch = 0 then D else batch)) raw

/-- `benchmark_disks_alloc` (benchmark_disks.cpp:61-264): the batches. -/
def benchmarkDisks (D size start batch raw : Nat) (late : Nat → Bool) : Outcome (List Batch) :=
  match perBatch D batch raw with
  | none => .undefined
  | some n => batches (endOf size start) start (n * raw) raw late (endOf size start + 1) 0 0 0

/-- `total_size_write` or `total_size_read` (benchmark_disks.cpp:164, 188) at the end, if the direction is chosen. -/
def totalSize (l : List Batch) : Nat := ((l.filter (·.moved)).map (·.bytes)).sum

/-- The disk of block `j` of a batch with allocation strategy `alloc`: `new_blocks` is called without `alloc_offset`
(benchmark_disks.cpp:142-144), so that the strategy starts anew in each batch (block_manager.hpp:74-77, 186-188). -/
def diskOfBlock (alloc : Nat → Option Nat) (j : Nat) : Option Nat := alloc (0 + j)

/-- The disks of the blocks of a batch, in order (benchmark_disks.cpp:136-144). -/
def batchDisks (alloc : Nat → Option Nat) (b : Batch) : List (Option Nat) := (List.range b.nblocks).map (diskOfBlock alloc)

/-! ### benchmark_disks_random -/

/-- The numbers computed at the start (benchmark_disks_random.cpp:60-73), with outcomes. -/
structure Plan where
  numBlocks : Nat
  inSpan : Nat
  inBatch : Nat
  numBatches : Nat
deriving Repr, DecidableEq

/-- The computation (benchmark_disks_random.cpp:51-73). -/
def plan (span bs work batch : Nat) : Outcome Plan :=
  if 128 * 2 ^ 20 < bs then .refused
  else match Arith.divCeil work bs, Arith.divCeil span bs with
    | some n0, some inSpan =>
      let n1 := min n0 inSpan
      let numBlocks := if n1 = 0 then inSpan else n1
      let batchBytes := if batch = 0 then numBlocks * bs else batch
      match Arith.divCeil batchBytes bs with
      | none => .undefined
      | some inBatch =>
        match Arith.divCeil numBlocks inBatch with
        | none => .undefined
        | some numBatches => .done { numBlocks, inSpan, inBatch, numBatches }
    | _, _ => .undefined

/-- The loop over the batches (benchmark_disks_random.cpp:144-152, 171-179): the positions in the shuffled vector `blocks`, batch by batch; position
`j + offset` uses `reqs[j]`. -/
def rounds (inBatch : Nat) : Nat → Nat → Nat → Outcome (List (List Nat))
  | 0, _, _ => .running
  | fuel + 1, offset, remaining =>
    if remaining ≠ 0 then
      let this := min inBatch remaining
      match rounds inBatch fuel (offset + this) (remaining - this) with
      | .done l => .done ((List.range this).map (· + offset) :: l)
      | o => o
    else .done []

/-- One direction of `run_test` (benchmark_disks_random.cpp:142-152, 169-179). -/
def randomAccess (p : Plan) : Outcome (List (List Nat)) := rounds p.inBatch (p.numBlocks + 1) 0 p.numBlocks

end Foxxll.DiskBench
