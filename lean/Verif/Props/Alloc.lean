/-
Properties C01–C06: one disk's block allocator.
-/
import Verif.Proofs.Alloc3
import Verif.Proofs.AllocAux

namespace Foxxll.Alloc

/-! ### C01 -/

/-- **C01**: in every reachable state the live blocks are pairwise disjoint and
inside the disk. -/
theorem C01_live_blocks_disjoint {cfg ag s} (h : Reach cfg ag s) :
    s.live.Pairwise Block.Disjoint ∧
    ∀ b ∈ s.live, 0 < b.size ∧ b.off + b.size ≤ s.disk.diskBytes :=
  have hi := (reach_inv h).toInv
  ⟨disjoint_of_cov hi.cov_le, fun b hb => ⟨hi.pos b hb, hi.inside hb⟩⟩

example : fragSys.live.Pairwise Block.Disjoint ∧
    ∀ b ∈ fragSys.live, 0 < b.size ∧ b.off + b.size ≤ fragSys.disk.diskBytes :=
  C01_live_blocks_disjoint reach_frag

/-- **C01**, second half: every byte of the disk is either free or in exactly one
live block – never both, never neither. -/
theorem C01_partition {cfg ag s} (h : Reach cfg ag s) (x : Nat) :
    (x < s.disk.diskBytes ↔ (s.disk.FreeByte x ∨ ∃ b ∈ s.live, b.has x)) ∧
    ¬ (s.disk.FreeByte x ∧ ∃ b ∈ s.live, b.has x) := by
  have hi := (reach_inv h).toInv
  have hp := hi.part x
  have hl : (∃ b ∈ s.live, b.has x) ↔ 0 < cov (s.live.map Block.reg) x := by
    rw [cov_pos]
    constructor
    · rintro ⟨b, hb, hx⟩; exact ⟨b.reg, List.mem_map.2 ⟨b, hb, rfl⟩, hx⟩
    · rintro ⟨r, hr, hx⟩
      obtain ⟨b, hb, rfl⟩ := List.mem_map.1 hr
      exact ⟨b, hb, hx⟩
  rw [hl, freeByte_iff]
  split at hp <;> omega

example : (3 < fragSys.disk.diskBytes ↔
    (fragSys.disk.FreeByte 3 ∨ ∃ b ∈ fragSys.live, b.has 3)) := (C01_partition reach_frag 3).1

/-! ### C02 -/

/-- **C02**: exact byte accounting. -/
theorem C02_accounting {cfg ag s} (h : Reach cfg ag s) :
    s.disk.freeBytes + liveBytes s.live = s.disk.diskBytes ∧
    s.disk.usedBytes = liveBytes s.live ∧
    (s.disk.free.map Prod.snd).sum = s.disk.freeBytes ∧
    s.disk.freeBytes ≤ s.disk.diskBytes := by
  have hi := reach_inv h
  have h1 := hi.acct
  refine ⟨h1, ?_, hi.bytes.symm, by omega⟩
  simp only [Disk.usedBytes]; omega

example : fragSys.disk.usedBytes = 2 := (C02_accounting reach_frag).2.1

/-! ### C03 -/

/-- **C03**, coalescing: free regions are non-empty, sorted, disjoint, not touching. -/
theorem C03_coalesced {cfg ag s} (h : Reach cfg ag s) :
    s.disk.free.Pairwise (fun a b => a.1 + a.2 < b.1) ∧ ∀ r ∈ s.disk.free, 0 < r.2 :=
  (reach_inv h).good

/-- **C03**: with no live block the disk is one free region; freeing all live
blocks in any order gets there, without changing the disk size. -/
theorem C03_all_freed {cfg ag s} (h : Reach cfg ag s) (bs : List Block) (hp : bs.Perm s.live) :
    (freeAll s bs).live = [] ∧ (freeAll s bs).disk.diskBytes = s.disk.diskBytes ∧
    (freeAll s bs).disk.freeBytes = s.disk.diskBytes ∧
    (freeAll s bs).disk.free =
      if s.disk.diskBytes = 0 then [] else [(0, s.disk.diskBytes)] := by
  obtain ⟨h1, h2, h3⟩ := freeAll_spec h bs hp
  have hi := reach_inv h1
  refine ⟨h2, h3, ?_, ?_⟩
  · have := hi.acct; rw [h2, h3] at this; simpa [liveBytes] using this
  · rw [← h3]
    apply hi.good.canonical
    intro x
    have := hi.part x
    rw [h2] at this
    simpa using this

example : (freeAll fragSys [⟨3, 1⟩, ⟨1, 1⟩]).disk.free = [(0, 4)] :=
  (C03_all_freed reach_frag [⟨3, 1⟩, ⟨1, 1⟩] (by decide)).2.2.2

/-- **C03**, consequence: on an empty disk every request up to the disk size
succeeds without growing the file, and returns one consecutive run of blocks. -/
theorem C03_empty_disk_serves {cfg ag s} (h : Reach cfg ag s) (hl : s.live = [])
    (sizes : List Nat) (h0 : sizes ≠ []) (hs : ∀ z ∈ sizes, 0 < z)
    (hle : sizes.sum ≤ s.disk.diskBytes) :
    ∃ d', newBlocks s.disk sizes = (d', .ok (layout 0 sizes)) ∧
      d'.diskBytes = s.disk.diskBytes := by
  have hi := reach_inv h
  have hpos := sum_pos_of h0 hs
  have hfree : s.disk.free = [(0, s.disk.diskBytes)] := by
    have := hi.good.canonical s.disk.diskBytes (by
      intro x; have := hi.part x; rw [hl] at this; simpa using this)
    rwa [if_neg (by omega)] at this
  have hfb : s.disk.freeBytes = s.disk.diskBytes := by
    have := hi.acct; rw [hl] at this; simpa [liveBytes] using this
  have hf : findSpace s.disk.free sizes.sum = some (0, s.disk.diskBytes) := by
    simp [findSpace, hfree, hle]
  have hn : ¬ s.disk.freeBytes < sizes.sum := by omega
  have hge : s.disk.freeBytes ≥ sizes.sum := by omega
  unfold newBlocks
  simp only [hn, if_false, hf, hge, if_true]
  exact ⟨_, rfl, rfl⟩

example : ∃ d', newBlocks disk4 [3, 1] = (d', .ok [0, 3]) ∧ d'.diskBytes = 4 :=
  C03_empty_disk_serves (.init create_disk4) rfl [3, 1] (by decide) (by decide) (by decide)

/-! ### C04 -/

/-- **C04**: freeing a range that touches any free byte is refused with
`bad_ext_alloc` (the throw precedes every mutation, see the model), and freeing
a live block is never refused. -/
theorem C04_double_free_rejected {cfg ag s} (h : Reach cfg ag s) (pos size : Nat)
    (hx : ∃ x, pos ≤ x ∧ x < pos + size ∧ s.disk.FreeByte x) :
    deleteBlock s.disk pos size = .error .badExtAlloc ∧
    s.step (.free ⟨pos, size⟩) = s := by
  obtain ⟨x, h1, h2, h3⟩ := hx
  have := addFreeRegion_overlap s.disk pos size x (reach_inv h).good h1 h2 (freeByte_iff.1 h3)
  exact ⟨this, by simp [Sys.step, deleteBlock, this]⟩

/-- **C04**, in particular a second free of the same block is refused. -/
theorem C04_second_free_rejected {cfg ag s} (h : Reach cfg ag s) (b : Block) (hb : b ∈ s.live) :
    ∃ d', deleteBlock s.disk b.off b.size = .ok d' ∧
      deleteBlock d' b.off b.size = .error .badExtAlloc := by
  have hi := (reach_inv h).toInv
  obtain ⟨d', he, hi', -⟩ := delete_ok hi hb
  refine ⟨d', he, addFreeRegion_overlap d' b.off b.size b.off hi'.good (Nat.le_refl _)
    (by have := hi.pos b hb; omega) ?_⟩
  obtain ⟨d'', he', hs⟩ := addFreeRegion_ok s.disk b.off b.size hi.good (hi.pos b hb) (by
    intro x h1 h2
    have := hi.part x
    rw [cov_erase hb x, if_pos ⟨h1, h2⟩] at this
    split at this <;> omega)
  have hdd : d' = d'' := by
    have : addFreeRegion s.disk b.off b.size = .ok d' := he
    rw [he'] at this; simpa using this.symm
  rw [hdd, hs.cov, if_pos ⟨Nat.le_refl _, by have := hi.pos b hb; omega⟩]; omega

example : deleteBlock fragSys.disk 1 2 = .error .badExtAlloc :=
  (C04_double_free_rejected reach_frag 1 2 ⟨2, by decide, by decide, (2, 1), by decide, by decide, by decide⟩).1

/-- **C04**, completeness: a range of positive size is accepted iff it touches no free byte. -/
theorem C04_accepts_iff {cfg ag s} (h : Reach cfg ag s) (pos size : Nat) (hs : 0 < size) :
    (∃ d', deleteBlock s.disk pos size = .ok d') ↔
      ∀ x, pos ≤ x → x < pos + size → ¬ s.disk.FreeByte x := by
  constructor
  · rintro ⟨d', hd⟩ x h1 h2 h3
    have := (C04_double_free_rejected h pos size ⟨x, h1, h2, h3⟩).1
    rw [hd] at this; cases this
  · intro hn
    obtain ⟨d', he, -⟩ := addFreeRegion_ok s.disk pos size (reach_inv h).good hs (by
      intro x h1 h2
      have := hn x h1 h2
      rw [freeByte_iff] at this; omega)
    exact ⟨d', he⟩

example : ∃ d', deleteBlock fragSys.disk 3 1 = .ok d' :=
  (C04_accepts_iff reach_frag 3 1 (by decide)).2 (by
    rintro x h1 h2 ⟨r, hr, h3, h4⟩
    obtain rfl : x = 3 := by omega
    revert h3 h4; revert r; decide)

/-! ### C05 -/

/-- **C05**: allocation succeeds exactly when it should; success returns as many
blocks as asked, with the asked sizes, disjoint from each other and from all live
blocks and inside the disk; refusal is `bad_ext_alloc` and changes nothing. -/
theorem C05_alloc_iff {cfg ag s} (h : Reach cfg ag s) (sizes : List Nat)
    (h0 : sizes ≠ []) (hs : ∀ z ∈ sizes, 0 < z) :
    (ag = true ∨ sizes.sum ≤ s.disk.freeBytes →
      ∃ d' offs, newBlocks s.disk sizes = (d', .ok offs) ∧ offs.length = sizes.length ∧
        (List.zipWith Block.mk offs sizes ++ s.live).Pairwise Block.Disjoint ∧
        (∀ b ∈ List.zipWith Block.mk offs sizes, b.off + b.size ≤ d'.diskBytes) ∧
        (∀ b ∈ List.zipWith Block.mk offs sizes, ∀ x, b.has x → ¬ d'.FreeByte x)) ∧
    (ag = false → s.disk.freeBytes < sizes.sum →
      newBlocks s.disk sizes = (s.disk, .error .badExtAlloc)) := by
  have hi := reach_inv h
  constructor
  · intro hr
    obtain ⟨d', offs, he, hsp⟩ := newBlocks_ok s.disk s.live hi.toInv sizes h0 hs
      (by rw [hi.auto]; exact hr)
    refine ⟨d', offs, he, hsp.len, disjoint_of_cov hsp.inv.cov_le, fun b hb => ?_, fun b hb x hx hf => ?_⟩
    · exact hsp.inv.inside (b := b) (List.mem_append.2 (Or.inl hb))
    · have h1 := hsp.inv.part x
      have h2 := freeByte_iff.1 hf
      have h3 : 0 < cov ((List.zipWith Block.mk offs sizes ++ s.live).map Block.reg) x :=
        cov_pos.2 ⟨b.reg, List.mem_map.2 ⟨b, List.mem_append.2 (Or.inl hb), rfl⟩, hx⟩
      split at h1 <;> simp only at h1 <;> omega
  · intro hag hlt
    exact newBlocks_refuse _ _ (by rw [hi.auto, hag]) hlt

example : ∃ d' offs, newBlocks fragSys.disk [1, 1] = (d', .ok offs) ∧ offs.length = 2 := by
  obtain ⟨d', offs, h1, h2, -⟩ := (C05_alloc_iff reach_frag [1, 1] (by decide) (by decide)).1
    (Or.inr (by decide))
  exact ⟨d', offs, h1, h2⟩

example : newBlocks fragSys.disk [2, 1] = (fragSys.disk, .error .badExtAlloc) :=
  (C05_alloc_iff reach_frag [2, 1] (by decide) (by decide)).2 rfl (by decide)

/-! ### C06 -/

/-- **C06 is false** (full statement: `∀ s, Reach cfg false s → s.disk.diskBytes = cfg`): a disk without autogrow grows when a single block does not
fit in any free region although enough bytes are free in total. -/
theorem C06_false : ∃ s, Reach 4 false s ∧ s.disk.diskBytes ≠ 4 := by
  refine ⟨fragSys.step (.alloc [2]), .step reach_frag (by decide), ?_⟩
  have : newBlocks fragSys.disk [2] =
      (⟨[(0, 1), (2, 1)], 2, 6, 4, false⟩, .ok [4]) := by unfold newBlocks; rfl
  simp [Sys.step, this]

/-- **C06, partial**: if all blocks have one size and the configured size is a
multiple of it (the usual configuration), a disk without autogrow never grows.
Missing for the full property: mixed block sizes, for which it is false
(`C06_false`). -/
theorem C06_no_growth_partial {B cfg s} (hB : 0 < B) (hd : B ∣ cfg)
    (h : ReachUniform B cfg false s) : s.disk.diskBytes = cfg := by
  suffices hh : Reach cfg false s ∧ s.disk.diskBytes = cfg ∧ Uni B s from hh.2.1
  induction h with
  | @init d hd' =>
    obtain ⟨d', h1, h2, h3, -⟩ := create_ok cfg false
    rw [hd'] at h1; cases h1
    exact ⟨.init hd', h3, ⟨by simpa [h3] using hd, by simp⟩⟩
  | @alloc s sizes _ h0 hs ih =>
    obtain ⟨hr, hdb, hu⟩ := ih
    have hv : (Op.alloc sizes).Valid s := ⟨h0, fun z hz => by rw [hs z hz]; exact hB⟩
    refine ⟨.step hr hv, ?_⟩
    have hi := reach_inv hr
    by_cases hle : sizes.sum ≤ s.disk.freeBytes
    · obtain ⟨d', offs, he, hsp⟩ := newBlocks_ok s.disk s.live hi.toInv sizes h0 hv.2 (Or.inr hle)
      obtain ⟨h1, h2⟩ := newBlocks_uni hB s.disk s.live hi.toInv hu sizes h0 hs hle he
      simp only [Sys.step, he]
      refine ⟨by rw [h1, hdb], ⟨by rw [h1]; exact hu.disk, fun b hb => ?_⟩⟩
      rcases List.mem_append.1 hb with hb | hb
      · exact h2 b hb
      · exact hu.live b hb
    · have := newBlocks_refuse s.disk sizes hi.auto (by omega)
      simp only [Sys.step, this]
      exact ⟨hdb, hu⟩
  | @free s b _ hb ih =>
    obtain ⟨hr, hdb, hu⟩ := ih
    refine ⟨.step hr hb, ?_⟩
    obtain ⟨d', he, hi', h1, -⟩ := delete_ok (reach_inv hr).toInv hb
    simp only [Sys.step, he]
    exact ⟨by rw [h1, hdb], ⟨by rw [h1]; exact hu.disk, fun c hc => hu.live c (List.mem_of_mem_erase hc)⟩⟩

example : fragSys.disk.diskBytes = 4 :=
  C06_no_growth_partial (by decide) (by decide) reachUniform_frag

end Foxxll.Alloc
