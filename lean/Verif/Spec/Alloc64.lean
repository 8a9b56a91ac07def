/-
Specification vocabulary for histories of one disk with 64-bit arithmetic and a
file whose `set_size` may fail.
-/
import Verif.Model.Alloc64
import Verif.Spec.Alloc

namespace Foxxll.Alloc64
open Foxxll.Alloc

/-- What a user sees: the disk and the blocks they currently own. -/
structure Sys64 where
  d : Disk64
  live : List Block
deriving DecidableEq

/-- Requests the interface takes: at least one block, sizes are positive values of
`uint64_t`; only owned blocks are given back. -/
def Valid64 (s : Sys64) : Op → Prop
  | .alloc sizes => sizes ≠ [] ∧ ∀ z ∈ sizes, 0 < z ∧ z < 2 ^ 64
  | .free b => b ∈ s.live

/-- Effect of one operation; `can` tells which sizes the file can take meanwhile. -/
def Sys64.step (can : Nat → Bool) (s : Sys64) : Op → Sys64
  | .alloc sizes =>
    match newBlocks64 can s.d sizes with
    | (d, .ok offs) => ⟨d, List.zipWith Block.mk offs sizes ++ s.live⟩
    | (d, .error _) => ⟨d, s.live⟩
  | .free b =>
    match delete64 s.d b.off b.size with
    | (d, .ok ()) => ⟨d, s.live.erase b⟩
    | (d, .error _) => ⟨d, s.live⟩

/-- States reachable by a valid history from an allocator opened on a file of
`file` bytes.  What the file can take may change with each step. -/
inductive Reach64 (file cfg : Nat) (ag : Bool) : Sys64 → Prop where
  | init {can d} : create can file cfg ag = (d, .ok ()) → Reach64 file cfg ag ⟨d, []⟩
  | step {s can op} : Reach64 file cfg ag s → Valid64 s op →
      Reach64 file cfg ag (s.step can op)

/-- The same for histories in which disk size and requested bytes together stay
below `2^64`. -/
inductive ReachFit (file cfg : Nat) (ag : Bool) : Sys64 → Prop where
  | init {can d} : create can file cfg ag = (d, .ok ()) → ReachFit file cfg ag ⟨d, []⟩
  | alloc {s can sizes} : ReachFit file cfg ag s → Valid64 s (.alloc sizes) →
      s.d.disk.diskBytes + sizes.sum < 2 ^ 64 →
      ReachFit file cfg ag (s.step can (.alloc sizes))
  | free {s can b} : ReachFit file cfg ag s → b ∈ s.live →
      ReachFit file cfg ag (s.step can (.free b))

/-- The same for histories in which all blocks have size `B`. -/
inductive ReachFitUni (B file cfg : Nat) (ag : Bool) : Sys64 → Prop where
  | init {can d} : create can file cfg ag = (d, .ok ()) → ReachFitUni B file cfg ag ⟨d, []⟩
  | alloc {s can sizes} : ReachFitUni B file cfg ag s → sizes ≠ [] → (∀ z ∈ sizes, z = B) →
      s.d.disk.diskBytes + sizes.sum < 2 ^ 64 →
      ReachFitUni B file cfg ag (s.step can (.alloc sizes))
  | free {s can b} : ReachFitUni B file cfg ag s → b ∈ s.live →
      ReachFitUni B file cfg ag (s.step can (.free b))

/-- No byte of the disk is lost: each is free or in a block a user owns. -/
def NoLeak (s : Sys64) : Prop :=
  ∀ x, x < s.d.disk.diskBytes → s.d.disk.FreeByte x ∨ ∃ b ∈ s.live, b.has x

end Foxxll.Alloc64
