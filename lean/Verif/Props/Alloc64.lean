/-
Properties C119 and C120: the block allocator of one disk with 64-bit arithmetic
and with a file that cannot always be resized.
-/
import Verif.Proofs.Alloc64Reach
import Verif.Proofs.Alloc64Aux

namespace Foxxll.Alloc64
open Foxxll.Alloc

/-! ### C119 -/

/-- **C119 is false** (full statement: in every state reachable with requests of any
64-bit sizes the live blocks are disjoint and lie inside the file).  A request for one
block of `2^64 - 4096` bytes succeeds on a disk of 8192 bytes; the sum
`disk_bytes_ + extend_bytes` wraps, the file is truncated to nothing while a block in
it is live. -/
theorem C119_false : ∃ s, Reach64 0 8192 true s ∧ s.d.file = 0 ∧
    (⟨0, 4096⟩ : Block) ∈ s.live ∧ (⟨4096, 2 ^ 64 - 4096⟩ : Block) ∈ s.live := by
  refine ⟨used4k.step offT (.alloc [2 ^ 64 - 4096]), .step reach_used4k (by decide), ?_⟩
  have : newBlocks64 offT used4k.d [2 ^ 64 - 4096] =
      (⟨⟨[], 0, 0, 8192, true⟩, 0⟩, .ok [4096]) := by
    rw [newBlocks64]; decide +kernel
  simp only [Sys64.step, this]
  decide

/-- **C119 is false** also without autogrow: the sum of the sizes of two blocks wraps to
zero, they are "found" in a free region that stays free, and the next block is handed
out on top of them. -/
theorem C119_overlap_false : ∃ s, Reach64 0 8192 false s ∧ ¬ s.live.Pairwise Block.Disjoint := by
  let s0 : Sys64 := ⟨⟨⟨[(0, 8192)], 8192, 8192, 8192, false⟩, 8192⟩, []⟩
  let s1 : Sys64 := ⟨s0.d, [⟨0, 2 ^ 63⟩, ⟨2 ^ 63, 2 ^ 63⟩]⟩
  have h0 : Reach64 0 8192 false s0 := .init (can := offT) rfl
  have h1 : Reach64 0 8192 false s1 := by
    have := Reach64.step (can := offT) (op := .alloc [2 ^ 63, 2 ^ 63]) h0 (by decide)
    have hn : newBlocks64 offT s0.d [2 ^ 63, 2 ^ 63] = (s0.d, .ok [0, 2 ^ 63]) := by
      rw [newBlocks64]; decide +kernel
    simp only [Sys64.step, hn] at this
    exact this
  refine ⟨s1.step offT (.alloc [4096]), .step h1 (by decide), ?_⟩
  have hn : newBlocks64 offT s1.d [4096] =
      (⟨⟨[(4096, 4096)], 4096, 8192, 8192, false⟩, 8192⟩, .ok [0]) := by
    rw [newBlocks64]; decide +kernel
  simp only [Sys64.step, hn]
  intro hp
  simp only [List.zipWith_cons_cons, List.zipWith_nil_right, List.cons_append, List.nil_append,
    List.pairwise_cons] at hp
  exact hp.1 ⟨0, 2 ^ 63⟩ (by simp [s1]) 0 ⟨⟨by decide, by decide⟩, ⟨by decide, by decide⟩⟩

/-- **C119, partial**: as long as disk size and requested bytes together stay below
`2^64`, the live blocks are disjoint, inside the disk and inside the file, and not
recorded as free.  Missing for the full property: larger requests, for which it is
false (`C119_false`). -/
theorem C119_live_blocks_partial {file cfg ag s} (hc : cfg < 2 ^ 64)
    (h : ReachFit file cfg ag s) :
    s.live.Pairwise Block.Disjoint ∧
    (∀ b ∈ s.live, 0 < b.size ∧ b.off + b.size ≤ s.d.disk.diskBytes) ∧
    s.d.disk.diskBytes ≤ s.d.file ∧ s.d.disk.diskBytes < 2 ^ 64 ∧
    (∀ b ∈ s.live, ∀ x, b.has x → ¬ s.d.disk.FreeByte x) := by
  obtain ⟨lost, hi⟩ := reach_finv hc h
  have hcl : ∀ x, cov (s.live.map Block.reg) x ≤ 1 := fun x => by
    have := hi.inv.cov_le x
    simp only [List.map_append, cov_append] at this
    omega
  refine ⟨disjoint_of_cov hcl, fun b hb => ⟨hi.inv.pos b (by simp [hb]),
    hi.inv.inside (b := b) (by simp [hb])⟩, hi.file, hi.small, fun b hb x hx hf => ?_⟩
  have h1 := hi.inv.part x
  have h2 := freeByte_iff.1 hf
  have h3 : 0 < cov (s.live.map Block.reg) x :=
    cov_pos.2 ⟨b.reg, List.mem_map.2 ⟨b, hb, rfl⟩, hx⟩
  simp only [List.map_append, cov_append] at h1
  split at h1 <;> omega

example : used4k.live.Pairwise Block.Disjoint :=
  (C119_live_blocks_partial (by decide) reachFit_used4k).1

/-- **C119, partial**: a request that fits gives exactly the blocks and the state that
unbounded integers would give; or it is refused, exactly when the disk has no autogrow
and too few free bytes; or the file could not be resized. -/
theorem C119_agrees_partial {file cfg ag s} (hc : cfg < 2 ^ 64) (h : ReachFit file cfg ag s)
    (can : Nat → Bool) (sizes : List Nat) (hv : Valid64 s (.alloc sizes))
    (hfit : s.d.disk.diskBytes + sizes.sum < 2 ^ 64) :
    (∃ d offs, newBlocks64 can s.d sizes = (d, .ok offs) ∧
      newBlocks s.d.disk sizes = (d.disk, .ok offs)) ∨
    (newBlocks64 can s.d sizes = (s.d, .error (.alloc .badExtAlloc)) ∧
      newBlocks s.d.disk sizes = (s.d.disk, .error .badExtAlloc) ∧
      ag = false ∧ s.d.disk.freeBytes < sizes.sum) ∨
    ((newBlocks64 can s.d sizes).2 = .error .io ∧ ∃ n, can n = false) := by
  obtain ⟨lost, hi⟩ := reach_finv hc h
  rcases finv_alloc hi can hv.1 (fun z hz => (hv.2 z hz).1) hfit with
    ⟨d, offs, he, ho, -⟩ | ⟨d, e, he, hf, -⟩
  · exact Or.inl ⟨d, offs, he, ho.eq⟩
  · rcases hf.err with rfl | ⟨rfl, rfl, ha, hl⟩
    · refine Or.inr (Or.inr ⟨by rw [he], ?_⟩)
      by_cases hn : ∃ n, can n = false
      · exact hn
      · exact absurd (by rw [he]) (new_not_io (can := can) (fun n => by
          cases hcn : can n with
          | true => rfl
          | false => exact absurd ⟨n, hcn⟩ hn) s.d sizes)
    · exact Or.inr (Or.inl ⟨he, newBlocks_refuse _ _ ha hl, by rw [← hi.auto]; exact ha, hl⟩)

example : ∃ d, newBlocks64 offT used4k.d [8192, 4096] = (d, .ok [4096, 12288]) := by
  refine ⟨⟨⟨[(16384, 4096)], 4096, 20480, 8192, true⟩, 20480⟩, ?_⟩
  rw [newBlocks64]; decide +kernel

example : (∃ d offs, newBlocks64 offT used4k.d [8192, 4096] = (d, .ok offs) ∧
      newBlocks used4k.d.disk [8192, 4096] = (d.disk, .ok offs)) := by
  rcases C119_agrees_partial (by decide) reachFit_used4k offT [8192, 4096] (by decide) (by decide)
    with h | h | h
  · exact h
  · exact absurd h.2.2.1 (by decide)
  · exfalso
    have : newBlocks64 offT used4k.d [8192, 4096] =
        (⟨⟨[(16384, 4096)], 4096, 20480, 8192, true⟩, 20480⟩, .ok [4096, 12288]) := by
      rw [newBlocks64]; decide +kernel
    rw [this] at h
    exact absurd h.1 (by simp)

/-- **C119, partial**: giving back a live block always works. -/
theorem C119_free_partial {file cfg ag s} (hc : cfg < 2 ^ 64) (h : ReachFit file cfg ag s)
    {b : Block} (hb : b ∈ s.live) :
    ∃ d, delete64 s.d b.off b.size = (d, .ok ()) ∧
      deleteBlock s.d.disk b.off b.size = .ok d.disk := by
  obtain ⟨lost, hi⟩ := reach_finv hc h
  obtain ⟨d', he, h1, -⟩ := delete_spec hi.inv hi.small (b := b) (by simp [hb])
  exact ⟨_, he, h1⟩

example : ∃ d, delete64 used4k.d 0 4096 = (d, .ok ()) := by
  obtain ⟨d, h, -⟩ := C119_free_partial (by decide) reachFit_used4k (b := ⟨0, 4096⟩) (by decide)
  exact ⟨d, h⟩

/-! ### C120 -/

/-- **C120 is false** (full statement: `∀ s, ReachFit file cfg ag s → NoLeak s`).  A request
for blocks of 1 and 2 bytes is split because no region has 3 bytes; the first half takes
byte 0; for the second the file should grow and cannot.  The exception tells the caller
that they have nothing, and byte 0 is neither free nor owned. -/
theorem C120_false : ∃ s, ReachFit 0 5 false s ∧ ¬ NoLeak s := by
  refine ⟨frag5.step (fun n => decide (n ≤ 5)) (.alloc [1, 2]),
    .alloc reach_frag5 (by decide) (by decide), ?_⟩
  have hn : newBlocks64 (fun n => decide (n ≤ 5)) frag5.d [1, 2] =
      (⟨⟨[(2, 1), (4, 1)], 2, 5, 5, false⟩, 5⟩, .error .io) := by
    have e1 : newBlocks64 (fun n => decide (n ≤ 5)) frag5.d [1] =
        (⟨⟨[(2, 1), (4, 1)], 2, 5, 5, false⟩, 5⟩, .ok [0]) := by
      rw [newBlocks64]; decide +kernel
    have e2 : newBlocks64 (fun n => decide (n ≤ 5)) ⟨⟨[(2, 1), (4, 1)], 2, 5, 5, false⟩, 5⟩ [2] =
        (⟨⟨[(2, 1), (4, 1)], 2, 5, 5, false⟩, 5⟩, .error .io) := by
      rw [newBlocks64]; decide +kernel
    rw [newBlocks64]
    have h1 : ¬ frag5.d.disk.freeBytes < reqSize [1, 2] := by decide
    have h2 : findSpace frag5.d.disk.free (reqSize [1, 2]) = none := by decide
    have h3 : ¬ [1, 2].length = 1 := by decide
    have h4 : [1, 2].length > 1 := by decide
    have h5 : ([1, 2] : List Nat).take ([1, 2].length / 2) = [1] := rfl
    have h6 : ([1, 2] : List Nat).drop ([1, 2].length / 2) = [2] := rfl
    simp only [h1, if_false, h2, h3, h4, dite_true, h5, h6, e1, e2]
  simp only [Sys64.step, hn]
  intro hl
  rcases hl 0 (by decide) with ⟨r, hr, h1, h2⟩ | ⟨b, hb, h1, h2⟩
  · revert h1 h2; revert r; decide
  · revert h1 h2; revert b; decide

/-- **C120, partial**: if all blocks of the disk have one size that divides its
configured size, a failed request leaves the allocator as it was and nothing is ever
lost.  Missing for the full property: mixed sizes, for which it is false
(`C120_false`). -/
theorem C120_uniform_partial {B file cfg ag s} (hB : 0 < B) (hd : B ∣ cfg) (hc : cfg < 2 ^ 64)
    (h : ReachFitUni B file cfg ag s) :
    NoLeak s ∧ ∀ can sizes, sizes ≠ [] → (∀ z ∈ sizes, z = B) →
      s.d.disk.diskBytes + sizes.sum < 2 ^ 64 →
      ∀ d e, newBlocks64 can s.d sizes = (d, .error e) → d = s.d := by
  obtain ⟨hi, hu⟩ := reach_uni hB hd hc h
  refine ⟨noLeak_of_finv hi, fun can sizes h0 hs hfit d e he => ?_⟩
  rcases uni_alloc hB can s.d s.live (by simpa using hi.inv) hu sizes h0 hs hfit with
    ⟨s', offs, he', -⟩ | ⟨e', he'⟩
  · rw [he'] at he; cases he
  · rw [he'] at he; cases he; rfl

example : NoLeak used4k :=
  (C120_uniform_partial (by decide) (by decide) (by decide) reachUni_used4k).1

/-- **C120, partial**: bytes are lost only by a request that ends with the `io_error` of a
failed `set_size`; those lost are the first blocks of that request, never all of it, and
the blocks owned before stay intact. -/
theorem C120_only_io_partial {file cfg ag s} (hc : cfg < 2 ^ 64) (h : ReachFit file cfg ag s)
    (hn : NoLeak s) (can : Nat → Bool) (sizes : List Nat) (hv : Valid64 s (.alloc sizes))
    (hfit : s.d.disk.diskBytes + sizes.sum < 2 ^ 64) :
    NoLeak (s.step can (.alloc sizes)) ∨
    ((newBlocks64 can s.d sizes).2 = .error .io ∧ (∃ n, can n = false) ∧
      (s.step can (.alloc sizes)).live = s.live ∧
      ∃ lost : List Block, (∃ k < sizes.length, lost.map Block.size = sizes.take k) ∧
        ∀ x, x < (s.step can (.alloc sizes)).d.disk.diskBytes →
          (s.step can (.alloc sizes)).d.disk.FreeByte x ∨ (∃ b ∈ s.live, b.has x) ∨
          ∃ b ∈ lost, b.has x) := by
  obtain ⟨lost, hi⟩ := reach_finv hc h
  obtain rfl := lost_nil hi hn
  rcases finv_alloc hi can hv.1 (fun z hz => (hv.2 z hz).1) hfit with
    ⟨d, offs, he, ho, hi'⟩ | ⟨d, e, he, hf, lost', hk, hi'⟩
  · exact Or.inl (noLeak_of_finv hi')
  · rcases hf.err with rfl | ⟨rfl, rfl, -, -⟩
    · right
      refine ⟨by rw [he], ?_, by rw [step_err he], lost', hk, fun x hx => ?_⟩
      · by_cases hn : ∃ n, can n = false
        · exact hn
        · exact absurd (by rw [he]) (new_not_io (can := can) (fun n => by
            cases hcn : can n with
            | true => rfl
            | false => exact absurd ⟨n, hcn⟩ hn) s.d sizes)
      · have hp := hi'.inv.part x
        rw [if_pos hx] at hp
        rw [step_err he] at hp ⊢
        simp only [List.append_nil, List.map_append, cov_append] at hp
        by_cases h0 : 0 < cov d.disk.free x
        · exact Or.inl (freeByte_iff.2 h0)
        · right
          by_cases h1 : 0 < cov (s.live.map Block.reg) x
          · obtain ⟨r, hr, hx1⟩ := cov_pos.1 h1
            obtain ⟨b, hb, rfl⟩ := List.mem_map.1 hr
            exact Or.inl ⟨b, hb, hx1⟩
          · obtain ⟨r, hr, hx1⟩ := cov_pos.1 (show 0 < cov (lost'.map Block.reg) x by omega)
            obtain ⟨b, hb, rfl⟩ := List.mem_map.1 hr
            exact Or.inr ⟨b, hb, hx1⟩
    · left
      rw [step_err he]
      exact hn

example : NoLeak (frag5.step (fun _ => true) (.alloc [1, 2])) := by
  rcases C120_only_io_partial (by decide) reach_frag5 noLeak_frag5 (fun _ => true) [1, 2]
    (by decide) (by decide) with h | ⟨-, ⟨n, hn⟩, -⟩
  · exact h
  · exact absurd hn (by decide)

/-- The destructor (disk_block_allocator.hpp:64-69) gives the file its configured size
back if the disk has grown, and otherwise leaves the file alone. -/
theorem C120_destructor_partial {file cfg ag s} (hc : cfg < 2 ^ 64) (h : ReachFit file cfg ag s)
    (can : Nat → Bool) {n : Nat} (hd : destroy64 can s.d = some n) :
    cfg ≤ n ∧ (s.d.disk.diskBytes ≤ cfg → n = s.d.file) ∧
      (cfg < s.d.disk.diskBytes → n = cfg) := by
  obtain ⟨lost, hi⟩ := reach_finv hc h
  have hm : cfg ≤ s.d.disk.diskBytes := by
    clear hd hi lost
    induction h with
    | init hcr => rw [(create_spec hc hcr).2.1]; exact Nat.le_refl _
    | @alloc s can sizes hr hv hfit ih =>
      obtain ⟨lost, hi⟩ := reach_finv hc hr
      rcases finv_alloc hi can hv.1 (fun z hz => (hv.2 z hz).1) hfit with
        ⟨_, _, he, ho, -⟩ | ⟨_, _, he, hf, -⟩
      · rw [step_ok he]; exact Nat.le_trans ih ho.spec.mono
      · rw [step_err he]; exact Nat.le_trans ih hf.mono
    | @free s can b hr hb ih =>
      obtain ⟨lost, hi⟩ := reach_finv hc hr
      obtain ⟨d', he, -, -, h1, -⟩ := delete_spec hi.inv hi.small (b := b) (by simp [hb])
      have hst : s.step can (.free b) = ⟨⟨d', s.d.file⟩, s.live.erase b⟩ := by
        simp [Sys64.step, he]
      rw [hst]
      simp only
      omega
  have hcf := hi.cfgB
  have hf := hi.file
  unfold destroy64 at hd
  rw [hcf] at hd
  split at hd
  · split at hd
    · cases hd; exact ⟨Nat.le_refl _, fun h => by omega, fun _ => rfl⟩
    · cases hd
  · cases hd; exact ⟨by omega, fun _ => rfl, fun h => by omega⟩

example : 8192 ≤ 8192 :=
  (C120_destructor_partial (by decide) reachFit_used4k offT (n := 8192) (by decide +kernel)).1

end Foxxll.Alloc64
