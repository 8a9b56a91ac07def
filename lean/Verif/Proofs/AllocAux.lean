/-
Auxiliary lemmas for the theorems of `Verif.Props.Alloc`.
-/
import Verif.Proofs.Alloc3
import Verif.Spec.AllocTerms

namespace Foxxll.Alloc

instance (s : Sys) (op : Op) : Decidable (op.Valid s) := by
  cases op <;> unfold Op.Valid <;> infer_instance

/-- the freshly created 4-byte disk -/
def disk4 : Disk := ⟨[(0, 4)], 4, 4, 4, false⟩

/-- the state reached by filling that disk with four 1-byte blocks and freeing the
first and the third -/
def fragSys : Sys := ⟨⟨[(0, 1), (2, 1)], 2, 4, 4, false⟩, [⟨1, 1⟩, ⟨3, 1⟩]⟩

theorem create_disk4 : Disk.create 4 false = .ok disk4 := by rfl

theorem newBlocks_disk4 : newBlocks disk4 [1, 1, 1, 1] =
    (⟨[], 0, 4, 4, false⟩, .ok [0, 1, 2, 3]) := by
  unfold newBlocks; rfl

theorem reach_frag : Reach 4 false fragSys := by
  have h0 : Reach 4 false ⟨disk4, []⟩ := .init create_disk4
  have h1 := Reach.step (op := .alloc [1, 1, 1, 1]) h0 (by decide)
  simp only [Sys.step, newBlocks_disk4] at h1
  have h2 := Reach.step (op := .free ⟨0, 1⟩) h1 (by decide)
  have h3 := Reach.step (op := .free ⟨2, 1⟩) h2 (by decide)
  exact h3

theorem freeAll_spec {cfg ag s} (h : Reach cfg ag s) (bs : List Block) (hp : bs.Perm s.live) :
    Reach cfg ag (freeAll s bs) ∧ (freeAll s bs).live = [] ∧
    (freeAll s bs).disk.diskBytes = s.disk.diskBytes := by
  induction bs generalizing s with
  | nil => exact ⟨h, hp.symm.eq_nil, rfl⟩
  | cons b bs ih =>
    have hb : b ∈ s.live := hp.subset (by simp)
    obtain ⟨d', he, hi, h1, -⟩ := delete_ok (reach_inv h).toInv hb
    have hst : s.step (.free b) = ⟨d', s.live.erase b⟩ := by simp [Sys.step, he]
    have hr : Reach cfg ag ⟨d', s.live.erase b⟩ := hst ▸ Reach.step (op := .free b) h hb
    have := ih hr (by simpa using hp.erase b)
    simp only [freeAll, List.foldl_cons, hst]
    exact ⟨this.1, this.2.1, by rw [← h1]; exact this.2.2⟩

theorem reachUniform_frag : ReachUniform 1 4 false fragSys := by
  have h0 : ReachUniform 1 4 false ⟨disk4, []⟩ := .init create_disk4
  have h1 := ReachUniform.alloc (sizes := [1, 1, 1, 1]) h0 (by decide) (by decide)
  simp only [Sys.step, newBlocks_disk4] at h1
  have h2 := ReachUniform.free (b := ⟨0, 1⟩) h1 (by decide)
  have h3 := ReachUniform.free (b := ⟨2, 1⟩) h2 (by decide)
  exact h3

end Foxxll.Alloc
