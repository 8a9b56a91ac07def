/-
Properties C11 and C12: allocation strategies.
-/
import Verif.Model.Strategy
import Verif.Proofs.Strategy

namespace Foxxll.Strategy

/-- A strategy always answers with a disk of `[b,e)`. -/
def InRange (b e : Nat) (f : Nat → Option Nat) : Prop :=
  ∀ i, ∃ d, f i = some d ∧ b ≤ d ∧ d < e

/-- The disks chosen for `D = e - b` consecutive steps of a run starting anywhere are
exactly the disks of `[b,e)`, each once. `idx k` is the index of the `k`-th block of the run. -/
def Balanced (b e : Nat) (f : Nat → Option Nat) (idx : Nat → Nat) : Prop :=
  ∀ k, ((List.range (e - b)).map (fun j => f (idx (k + j)))).Perm
    ((List.range (e - b)).map (fun j => some (b + j)))

/-! ### C11 -/

/-- **C11**: every strategy constructed for a non-empty range stays in it, for all
random draws, permutations, run counts and offsets. -/
theorem C11_in_range (b e : Nat) (h : b < e) :
    InRange b e (striping b e) ∧
    (∀ draw, InRange b e (fullyRandom b e draw)) ∧
    (∀ draw, InRange b e (simpleRandom b e draw)) ∧
    (∀ perm, perm.Perm (List.range (e - b)) → InRange b e (randomCyclic b e perm)) ∧
    (∀ nruns, 0 < nruns → InRange b e (interleavedStriping nruns b e)) ∧
    (∀ draw, InRange b e (interleavedFullyRandom b e draw)) ∧
    (∀ nruns offsets, 0 < nruns → offsets.length = nruns →
      InRange b e (interleavedSimpleRandom nruns b e offsets)) ∧
    (∀ nruns perms, 0 < nruns → perms.length = nruns →
      (∀ p ∈ perms, p.Perm (List.range (e - b))) →
      InRange b e (interleavedRandomCyclic nruns b e perms)) ∧
    (∀ base offset, InRange b e base → InRange b e (offsetAllocator base offset)) ∧
    (∀ d, b ≤ d → d < e → InRange b e (singleDisk d) ∧ InRange b e (firstDiskOnly d)) := by
  have h0 : 0 < e - b := by omega
  refine ⟨fun i => in_range_aux h, fun draw i => in_range_aux h, fun draw i => ?_, fun perm hp i => ?_,
    fun nruns hn i => ?_, fun draw i => in_range_aux h, fun nruns offs hn hl i => ?_,
    fun nruns perms hn hl hp i => ?_, fun base o hb i => hb _, fun d h1 h2 =>
      ⟨fun i => ⟨d, rfl, h1, h2⟩, fun i => ⟨d, rfl, h1, h2⟩⟩⟩
  · simp only [simpleRandom, mod?_pos h0 (x := draw), Option.bind_some]
    exact in_range_aux h
  · obtain ⟨v, hv, hlt⟩ := perm_get hp (Nat.mod_lt i h0)
    exact ⟨b + v, by simp [randomCyclic, mod?_pos h0, hv], by omega, by omega⟩
  · simp only [interleavedStriping, div?_pos hn, Option.bind_some]
    exact in_range_aux h
  · have hr : i % nruns < offs.length := by rw [hl]; exact Nat.mod_lt i hn
    simp only [interleavedSimpleRandom, div?_pos hn, mod?_pos hn, Option.bind_some,
      List.getElem?_eq_getElem hr]
    exact in_range_aux h
  · have hr : i % nruns < perms.length := by rw [hl]; exact Nat.mod_lt i hn
    obtain ⟨v, hv, hlt⟩ := perm_get (hp _ (List.getElem_mem hr)) (Nat.mod_lt (i / nruns) h0)
    refine ⟨b + v, ?_, by omega, by omega⟩
    simp [interleavedRandomCyclic, div?_pos hn, mod?_pos hn, mod?_pos h0,
      List.getElem?_eq_getElem hr, hv]

example : InRange 2 5 (randomCyclic 2 5 [2, 0, 1]) :=
  (C11_in_range 2 5 (by decide)).2.2.2.1 [2, 0, 1] (by decide)

example : randomCyclic 2 5 [2, 0, 1] 7 = some 2 := by decide

/-- **C11**: an offset, also a negative one, moves the argument of the base allocator by
that number of blocks as long as the result is a block number. -/
theorem C11_offset (base : Nat → Option Nat) (offset : Int) (i k : Nat)
    (hk : (k : Int) = offset + i) (hlt : k < 2 ^ 64) : offsetAllocator base offset i = base k := by
  unfold offsetAllocator
  rw [← hk]
  congr 1
  omega

example : offsetAllocator (striping 2 5) (-1) 3 = some 4 := by
  rw [C11_offset _ (-1) 3 2 (by decide) (by decide)]; decide

/-! ### C12 -/

/-- **C12**: perfect balance over any `D` consecutive blocks; for the interleaved
variants over `D` consecutive blocks of any one run `r` (block `k` of run `r` has
index `r + nruns * k`). -/
theorem C12_balanced (b e : Nat) (h : b < e) :
    Balanced b e (striping b e) id ∧
    (∀ draw, Balanced b e (simpleRandom b e draw) id) ∧
    (∀ perm, perm.Perm (List.range (e - b)) → Balanced b e (randomCyclic b e perm) id) ∧
    (∀ nruns r, r < nruns → Balanced b e (interleavedStriping nruns b e) (fun k => r + nruns * k)) ∧
    (∀ nruns r offsets, r < nruns → offsets.length = nruns →
      Balanced b e (interleavedSimpleRandom nruns b e offsets) (fun k => r + nruns * k)) ∧
    (∀ nruns r perms, r < nruns → perms.length = nruns →
      (∀ p ∈ perms, p.Perm (List.range (e - b))) →
      Balanced b e (interleavedRandomCyclic nruns b e perms) (fun k => r + nruns * k)) := by
  have h0 : 0 < e - b := by omega
  refine ⟨fun k => ?_, fun draw k => ?_, fun perm hp k => ?_, fun n r hr k => ?_,
    fun n r offs hr hl k => ?_, fun n r perms hr hl hp k => ?_⟩
  · simpa [striping, mod?_pos h0] using rotate_perm (e - b) k (fun j => some (b + j))
  · have := rotate_perm (e - b) (k + draw % (e - b)) (fun j => some (b + j))
    simp only [simpleRandom, mod?_pos h0, Option.bind_some, Option.map_some, id]
    simpa only [Nat.add_right_comm] using this
  · refine List.Perm.trans ?_ (perm_map_get hp b)
    simpa [randomCyclic, mod?_pos h0] using rotate_perm (e - b) k (fun j => (perm[j]?).map (b + ·))
  · have hn : 0 < n := by omega
    simpa [interleavedStriping, div?_pos hn, mod?_pos h0, div_run hr] using
      rotate_perm (e - b) k (fun j => some (b + j))
  · have hn : 0 < n := by omega
    have hro : r < offs.length := by omega
    have := rotate_perm (e - b) (k + offs[r]) (fun j => some (b + j))
    simp only [interleavedSimpleRandom, div?_pos hn, mod?_pos hn, mod?_pos h0, div_run hr, mod_run hr,
      Option.bind_some, List.getElem?_eq_getElem hro, Option.map_some]
    simpa only [Nat.add_right_comm] using this
  · have hn : 0 < n := by omega
    have hro : r < perms.length := by omega
    refine List.Perm.trans ?_ (perm_map_get (hp _ (List.getElem_mem hro)) b)
    simp only [interleavedRandomCyclic, div?_pos hn, mod?_pos hn, mod?_pos h0, div_run hr, mod_run hr,
      Option.bind_some, List.getElem?_eq_getElem hro]
    exact rotate_perm (e - b) k (fun j => (perms[r][j]?).map (b + ·))

example : Balanced 2 5 (interleavedRandomCyclic 2 2 5 [[2, 0, 1], [0, 1, 2]]) (fun k => 1 + 2 * k) :=
  (C12_balanced 2 5 (by decide)).2.2.2.2.2 2 1 [[2, 0, 1], [0, 1, 2]] (by decide) rfl (by decide)

end Foxxll.Strategy
