import Verif.Model.AlignedHeap
/-
The contract of the C heap and of the user of aligned blocks.
-/
namespace Foxxll.AlignedHeap
open Foxxll.Arith (Mem ptrSize)

/-- A range obtained from `malloc` is not null, ends below 2^64, and does not overlap an allocated buffer. -/
def Fresh (l : List (Nat × Nat)) (a n : Nat) : Prop :=
  0 < a ∧ a + n ≤ 2 ^ 64 ∧ ∀ p ∈ l, a ≠ p.1 ∧ (a + n ≤ p.1 ∨ p.1 + p.2 ≤ a)

/-- In each activation `malloc` returns null or a fresh range.  There are as many answers as activations. -/
def Contract (A size metaSize : Nat) : List Ans → Heap → Prop
  | [], _ => False
  | ans :: rest, h =>
    (ans.buf = 0 ∨ Fresh h.live ans.buf (allocSize A size metaSize)) ∧
    ∀ h', attempt A size metaSize ans h = (.retry, h') → Contract A size metaSize rest h'

/-- In no activation `realloc`, called to make the buffer smaller, returns null. -/
def Shrinks (A size metaSize : Nat) : List Ans → Heap → Prop
  | [], _ => True
  | ans :: rest, h => (h.may = true → ans.buf ≠ 0 → ans.re ≠ 0) ∧
    ∀ h', attempt A size metaSize ans h = (.retry, h') → Shrinks A size metaSize rest h'

/-- The user may write to the bytes `[ptr, ptr + meta + size)` of a block. -/
def Blk.Has (b : Blk) (a : Nat) : Prop := b.ptr ≤ a ∧ a < b.ptr + b.metaSize + b.size

/-- Rules: the sizes do not add up to 2^64 or more, the C heap keeps its contract, the user deallocates only (null or) own blocks
and writes only to own blocks. -/
def Allowed (s : St) : Op → Prop
  | .alloc A size metaSize ans => 0 < A ∧ A + 8 + metaSize + size < 2 ^ 64 ∧ Contract A size metaSize ans s.h
  | .dealloc ptr _ => ptr = 0 ∨ ∃ b ∈ s.blocks, b.ptr = ptr
  | .write a _ => ∃ b ∈ s.blocks, b.Has a

/-- `realloc` never fails to make a buffer smaller in this step. -/
def NoFail (s : St) : Op → Prop
  | .alloc A size metaSize ans => Shrinks A size metaSize ans s.h
  | _ => True

/-- Programs that keep the rules; `good` says whether `realloc` has never failed. -/
inductive Life : Bool → St → Prop
  | start : Life true {}
  | step {good s op s'} : Life good s → Allowed s op → NoFail s op → step s op = some s' → Life good s'
  | fail {good s op s'} : Life good s → Allowed s op → step s op = some s' → Life false s'

/-- Two blocks have no byte in common. -/
def Blk.Apart (b c : Blk) : Prop := ∀ a, b.Has a → ¬ c.Has a

/-- What the user relies on: each block is aligned and lies in a buffer that is allocated, and no two blocks overlap. -/
structure Sound (s : St) : Prop where
  aligned : ∀ b ∈ s.blocks, b.align ∣ b.ptr + b.metaSize
  contained : ∀ b ∈ s.blocks, ∃ p ∈ s.h.live, p.1 ≤ b.ptr ∧ b.ptr + b.metaSize + b.size ≤ p.1 + p.2
  apart : s.blocks.Pairwise Blk.Apart

end Foxxll.AlignedHeap
