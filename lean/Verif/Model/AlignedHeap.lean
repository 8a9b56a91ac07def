import Verif.Model.Arith
/-
Model of `aligned_alloc`/`aligned_dealloc` (/repo/foxxll/common/aligned_alloc.hpp) on a heap with many blocks and with the
64-bit arithmetic of `size_t`, and of the operators of `typed_block` (/repo/foxxll/mng/typed_block.hpp) and of `new_alloc`
(/repo/foxxll/common/new_alloc.hpp) that use them.  `Verif.Model.Arith` has a single call without overflow.

Simplifications: the heap calls of different threads do not interleave; pointers are numbers and pointer arithmetic itself is
not undefined, only accesses outside of heap buffers are.
-/
namespace Foxxll.AlignedHeap
open Foxxll.Arith (Mem ptrSize storePtr loadPtr)

/-- Values of `size_t` (aligned_alloc.hpp:59). -/
def W : Nat := 2 ^ 64

/-- The C heap as far as aligned_alloc.hpp:60, 95, 100, 130 use it: the buffers that are allocated (address, size), the memory,
and the static `may_use_realloc` (aligned_alloc.hpp:28-34). -/
structure Heap where
  live : List (Nat × Nat) := []
  mem : Mem := fun _ => 0
  may : Bool := true

/-- Address `a` lies in one of the buffers (for the accesses of aligned_alloc.hpp:107, 126). -/
def inside (l : List (Nat × Nat)) (a : Nat) : Bool := l.any fun p => decide (p.1 ≤ a ∧ a < p.1 + p.2)

/-- All `n` bytes at `a` lie in one buffer (for the accesses of aligned_alloc.hpp:107, 126). -/
def covers (l : List (Nat × Nat)) (a n : Nat) : Bool := l.any fun p => decide (p.1 ≤ a ∧ a + n ≤ p.1 + p.2)

/-- A call of the C heap (aligned_alloc.hpp:60, 95, 100, 130) leaves the buffers `keep` alone and may do anything to the other memory. -/
def clobber (keep : List (Nat × Nat)) (junk : Nat → Nat) (m : Mem) : Mem :=
  fun a => if inside keep a then m a else junk a

/-- What the C heap answers in one activation of `aligned_alloc`: the results of `malloc` and `realloc` (aligned_alloc.hpp:60, 95), and what is in the
memory that it does not keep. -/
structure Ans where
  buf : Nat
  re : Nat
  junk : Nat → Nat

/-- Outcome of an activation of `aligned_alloc` (aligned_alloc.hpp:48-118); `ok` has the returned pointer and the buffer, `retry` is the call of line 102. -/
inductive Res
  | ok (ptr buf : Nat)
  | badAlloc
  | assertFail
  | ub
  | retry
deriving DecidableEq, Repr

/-- `alloc_size` (aligned_alloc.hpp:59), `size_t` arithmetic. -/
def allocSize (A size metaSize : Nat) : Nat := (A + ptrSize + metaSize + size) % W

/-- `result` (aligned_alloc.hpp:80-82). -/
def place (A metaSize buf : Nat) : Nat :=
  (buf + ptrSize + metaSize) + A - (buf + ptrSize + metaSize) % A - metaSize

/-- `realloc_size` (aligned_alloc.hpp:93), `size_t` arithmetic. -/
def reallocSize (A size metaSize buf : Nat) : Nat := (place A metaSize buf - buf + metaSize + size) % W

/-- Storing the address of the buffer in front of the result (aligned_alloc.hpp:107). -/
def store (h : Heap) (result buf : Nat) : Res × Heap :=
  if covers h.live (result - ptrSize) ptrSize then (.ok result buf, { h with mem := storePtr h.mem (result - ptrSize) buf })
  else (.ub, h)

/-- One activation of `aligned_alloc<A>(size, meta)` (aligned_alloc.hpp:48-118), `malloc` variant. A `realloc` that returns null has left
the buffer allocated (line 100 frees nothing then); one that moves has freed the old buffer, and line 100 frees the new one. The `memset` of
FOXXLL_ALIGNED_CALLOC (lines 77-79) is a case of `junk`. -/
def attempt (A size metaSize : Nat) (ans : Ans) (h : Heap) : Res × Heap :=
  let n := allocSize A size metaSize
  if ans.buf = 0 then (.badAlloc, h)
  else
    let h1 : Heap := { h with live := (ans.buf, n) :: h.live, mem := clobber h.live ans.junk h.mem }
    let result := place A metaSize ans.buf
    if result - ans.buf < ptrSize then (.assertFail, h1)
    else
      let rn := reallocSize A size metaSize ans.buf
      if rn < n ∧ h.may = true then
        if ans.buf ≠ ans.re then
          if ans.re = 0 then (.retry, { h1 with may := false })
          else (.retry, { h with mem := clobber h.live ans.junk h.mem, may := false })
        else
          let h2 : Heap := { h1 with live := (ans.buf, rn) :: h.live }
          if ans.buf + rn < result + size then (.assertFail, h2)
          else store h2 result ans.buf
      else store h1 result ans.buf

/-- `aligned_alloc` with the recursion of aligned_alloc.hpp:102; one answer for each activation, `none` when there are too few. -/
def alignedAlloc (A size metaSize : Nat) : List Ans → Heap → Option (Res × Heap)
  | [], _ => none
  | ans :: rest, h =>
    match attempt A size metaSize ans h with
    | (.retry, h') => alignedAlloc A size metaSize rest h'
    | r => some r

/-- `aligned_dealloc` (aligned_alloc.hpp:120-131): a null pointer is ignored; reading outside of buffers and freeing what is not a
buffer is undefined. -/
def alignedDealloc (ptr : Nat) (junk : Nat → Nat) (h : Heap) : Option Heap :=
  if ptr = 0 then some h
  else if covers h.live (ptr - ptrSize) ptrSize then
    let buf := loadPtr h.mem (ptr - ptrSize)
    if h.live.any (fun p => p.1 == buf) then
      let l := h.live.filter (fun p => p.1 != buf)
      some { h with live := l, mem := clobber l junk h.mem }
    else none
  else none

/-- `typed_block::operator new` and `operator new[]` (typed_block.hpp:359-374, 376-391): size and meta size given to `aligned_alloc`. -/
def newArgs (raw bytes : Nat) : Nat × Nat := (bytes - bytes % raw, bytes % raw)

/-- `new_alloc<typed_block>::max_size` (new_alloc.hpp:82-85). -/
def maxSize (raw : Nat) : Nat := (W - 1) / raw

/-- The number of bytes that `new_alloc<typed_block>::allocate` (new_alloc.hpp:88-91) asks `operator new` for. -/
def allocateBytes (raw num : Nat) : Nat := num * raw % W

/-- A block in the hands of the user: pointer, what was asked for, and (not known to the user) the buffer (aligned_alloc.hpp:36-45). -/
structure Blk where
  ptr : Nat
  align : Nat
  size : Nat
  metaSize : Nat
  buf : Nat
deriving DecidableEq, Repr

/-- The heap and the blocks of the user (aligned_alloc.hpp:36-45). -/
structure St where
  h : Heap := {}
  blocks : List Blk := []

/-- What a program does: allocating, deallocating (aligned_alloc.hpp:47-48, 121-122), and writing a byte. -/
inductive Op
  | alloc (A size metaSize : Nat) (ans : List Ans)
  | dealloc (ptr : Nat) (junk : Nat → Nat)
  | write (a v : Nat)

/-- Outcome of a step: `none` is undefined behaviour or a failed assertion (aligned_alloc.hpp:89, 104); `std::bad_alloc` (aligned_alloc.hpp:75-76)
leaves the program running without a new block. -/
def step (s : St) : Op → Option St
  | .alloc A size metaSize ans =>
    match alignedAlloc A size metaSize ans s.h with
    | some (.ok ptr buf, h) => some ⟨h, ⟨ptr, A, size, metaSize, buf⟩ :: s.blocks⟩
    | some (.badAlloc, h) => some ⟨h, s.blocks⟩
    | _ => none
  | .dealloc ptr junk =>
    match alignedDealloc ptr junk s.h with
    | some h => some ⟨h, s.blocks.filter (fun b => b.ptr != ptr)⟩
    | none => none
  | .write a v =>
    if inside s.h.live a then some ⟨{ s.h with mem := fun x => if x = a then v else s.h.mem x }, s.blocks⟩ else none

/-- A program (aligned_alloc.hpp:47-131). -/
def run (s : St) : List Op → Option St
  | [] => some s
  | op :: ops => (step s op).bind fun s' => run s' ops

end Foxxll.AlignedHeap
