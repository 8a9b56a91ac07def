/-
Specification vocabulary for one disk: blocks as byte ranges, and histories of
allocate/free calls as seen by a user.
-/
import Verif.Model.Allocator

namespace Foxxll.Alloc

/-- A block handed out to a user: a byte range of the disk. -/
structure Block where
  off : Nat
  size : Nat
deriving DecidableEq, Repr

/-- Byte `x` belongs to block `b`. -/
def Block.has (b : Block) (x : Nat) : Prop := b.off ≤ x ∧ x < b.off + b.size

/-- Two blocks share no byte. -/
def Block.Disjoint (a b : Block) : Prop := ∀ x, ¬ (a.has x ∧ b.has x)

/-- Byte `x` is recorded as free. -/
def Disk.FreeByte (d : Disk) (x : Nat) : Prop :=
  ∃ r ∈ d.free, r.1 ≤ x ∧ x < r.1 + r.2

/-- What a user sees: the disk and the blocks they currently own. -/
structure Sys where
  disk : Disk
  live : List Block
deriving DecidableEq

/-- User-visible operations. -/
inductive Op where
  | alloc (sizes : List Nat)
  | free (b : Block)
deriving DecidableEq

/-- Preconditions of the API: at least one block, no zero-sized blocks; only
owned blocks are given back. -/
def Op.Valid (s : Sys) : Op → Prop
  | .alloc sizes => sizes ≠ [] ∧ ∀ z ∈ sizes, 0 < z
  | .free b => b ∈ s.live

/-- Effect of one operation on the disk and on the set of owned blocks. -/
def Sys.step (s : Sys) : Op → Sys
  | .alloc sizes =>
    match newBlocks s.disk sizes with
    | (d, .ok offs) => ⟨d, List.zipWith Block.mk offs sizes ++ s.live⟩
    | (d, .error _) => ⟨d, s.live⟩
  | .free b =>
    match deleteBlock s.disk b.off b.size with
    | .ok d => ⟨d, s.live.erase b⟩
    | .error _ => s

/-- States reachable by a valid history from a freshly opened disk. -/
inductive Reach (cfgSize : Nat) (autogrow : Bool) : Sys → Prop where
  | init {d} : Disk.create cfgSize autogrow = .ok d → Reach cfgSize autogrow ⟨d, []⟩
  | step {s op} : Reach cfgSize autogrow s → op.Valid s → Reach cfgSize autogrow (s.step op)

/-- Sum of the sizes of a list of blocks. -/
def liveBytes (bs : List Block) : Nat := (bs.map Block.size).sum

end Foxxll.Alloc
