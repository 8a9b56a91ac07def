/-
Auxiliary lemmas for the theorems of `Verif.Props.Alloc64`.
-/
import Verif.Proofs.Alloc64Reach

namespace Foxxll.Alloc64
open Foxxll.Alloc

instance (s : Sys64) (op : Op) : Decidable (Valid64 s op) := by
  cases op <;> unfold Valid64 <;> infer_instance

deriving instance DecidableEq for Except

/-- sizes that `ftruncate` takes on Linux: those of a signed 64-bit `off_t` -/
def offT : Nat → Bool := fun n => decide (n < 2 ^ 63)

/-- a disk of 8192 bytes with autogrow; 4096 bytes are in use -/
def used4k : Sys64 := ⟨⟨⟨[(4096, 4096)], 4096, 8192, 8192, true⟩, 8192⟩, [⟨0, 4096⟩]⟩

theorem new_used4k : newBlocks64 offT ⟨⟨[(0, 8192)], 8192, 8192, 8192, true⟩, 8192⟩ [4096] =
    (⟨⟨[(4096, 4096)], 4096, 8192, 8192, true⟩, 8192⟩, .ok [0]) := by
  rw [newBlocks64]; decide +kernel

theorem reach_used4k : Reach64 0 8192 true used4k := by
  have h0 : Reach64 0 8192 true ⟨⟨⟨[(0, 8192)], 8192, 8192, 8192, true⟩, 8192⟩, []⟩ :=
    .init (can := offT) rfl
  have h1 := Reach64.step (can := offT) (op := .alloc [4096]) h0 (by decide)
  simp only [Sys64.step, new_used4k] at h1
  exact h1

theorem reachFit_used4k : ReachFit 0 8192 true used4k := by
  have h0 : ReachFit 0 8192 true ⟨⟨⟨[(0, 8192)], 8192, 8192, 8192, true⟩, 8192⟩, []⟩ :=
    .init (can := offT) rfl
  have h1 := ReachFit.alloc (can := offT) (sizes := [4096]) h0 (by decide) (by decide)
  simp only [Sys64.step, new_used4k] at h1
  exact h1

/-- a disk of 5 bytes without autogrow of which every second byte is free -/
def frag5 : Sys64 := ⟨⟨⟨[(0, 1), (2, 1), (4, 1)], 3, 5, 5, false⟩, 5⟩, [⟨1, 1⟩, ⟨3, 1⟩]⟩

theorem reach_frag5 : ReachFit 0 5 false frag5 := by
  have h0 : ReachFit 0 5 false ⟨⟨⟨[(0, 5)], 5, 5, 5, false⟩, 5⟩, []⟩ :=
    .init (can := offT) rfl
  have h1 := ReachFit.alloc (can := offT) (sizes := [1, 1, 1, 1, 1]) h0 (by decide) (by decide)
  have hn : newBlocks64 offT ⟨⟨[(0, 5)], 5, 5, 5, false⟩, 5⟩ [1, 1, 1, 1, 1] =
      (⟨⟨[], 0, 5, 5, false⟩, 5⟩, .ok [0, 1, 2, 3, 4]) := by
    rw [newBlocks64]; decide +kernel
  simp only [Sys64.step, hn] at h1
  have h2 := ReachFit.free (can := offT) (b := ⟨0, 1⟩) h1 (by decide)
  have h3 := ReachFit.free (can := offT) (b := ⟨2, 1⟩) h2 (by decide)
  have h4 := ReachFit.free (can := offT) (b := ⟨4, 1⟩) h3 (by decide)
  exact h4

theorem reachUni_used4k : ReachFitUni 4096 0 8192 true used4k := by
  have h0 : ReachFitUni 4096 0 8192 true ⟨⟨⟨[(0, 8192)], 8192, 8192, 8192, true⟩, 8192⟩, []⟩ :=
    .init (can := offT) rfl
  have h1 := ReachFitUni.alloc (can := offT) (sizes := [4096]) h0 (by decide) (by decide) (by decide)
  simp only [Sys64.step, new_used4k] at h1
  exact h1

theorem noLeak_frag5 : NoLeak frag5 := by
  intro x hx
  have : x < 5 := hx
  have h5 : x = 0 ∨ x = 1 ∨ x = 2 ∨ x = 3 ∨ x = 4 := by omega
  rcases h5 with rfl | rfl | rfl | rfl | rfl
  · exact Or.inl ⟨(0, 1), by decide, by decide, by decide⟩
  · exact Or.inr ⟨⟨1, 1⟩, by decide, by decide, by decide⟩
  · exact Or.inl ⟨(2, 1), by decide, by decide, by decide⟩
  · exact Or.inr ⟨⟨3, 1⟩, by decide, by decide, by decide⟩
  · exact Or.inl ⟨(4, 1), by decide, by decide, by decide⟩

end Foxxll.Alloc64
