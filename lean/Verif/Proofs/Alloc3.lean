import Verif.Proofs.Alloc2

set_option linter.unusedSimpArgs false

namespace Foxxll.Alloc

theorem cov_perm {a b : List Region} (h : a.Perm b) (x : Nat) : cov a x = cov b x :=
  h.countP_eq _

theorem cov_erase {live : List Block} {b : Block} (hb : b ∈ live) (x : Nat) :
    cov (live.map Block.reg) x = cov ((live.erase b).map Block.reg) x +
      if b.off ≤ x ∧ x < b.off + b.size then 1 else 0 := by
  rw [cov_perm ((List.perm_cons_erase hb).map Block.reg) x, List.map_cons, cov_cons]
  rfl

theorem liveBytes_erase {live : List Block} {b : Block} (hb : b ∈ live) :
    liveBytes live = liveBytes (live.erase b) + b.size := by
  have := ((List.perm_cons_erase hb).map Block.size).sum_nat
  simp only [liveBytes, this, List.map_cons, List.sum_cons]; omega

theorem liveBytes_append (a b) : liveBytes (a ++ b) = liveBytes a + liveBytes b := by
  simp [liveBytes]

theorem liveBytes_zip {offs sizes : List Nat} (h : offs.length = sizes.length) :
    liveBytes (List.zipWith Block.mk offs sizes) = sizes.sum := by
  induction offs generalizing sizes with
  | nil => cases sizes with
    | nil => rfl
    | cons => simp at h
  | cons o os ih => cases sizes with
    | nil => simp at h
    | cons s ss =>
      have := ih (sizes := ss) (by simpa using h)
      simp only [liveBytes, List.zipWith_cons_cons, List.map_cons, List.sum_cons] at *
      omega

/-- freeing a live block works -/
theorem delete_ok {s : Sys} (h : Inv s) {b : Block} (hb : b ∈ s.live) :
    ∃ d', deleteBlock s.disk b.off b.size = .ok d' ∧ Inv ⟨d', s.live.erase b⟩ ∧
      d'.diskBytes = s.disk.diskBytes ∧ d'.freeBytes = s.disk.freeBytes + b.size ∧
      d'.cfgBytes = s.disk.cfgBytes ∧ d'.autogrow = s.disk.autogrow := by
  obtain ⟨d', h1, hs⟩ := addFreeRegion_ok s.disk b.off b.size h.good (h.pos b hb) (by
    intro x h1 h2
    have := h.part x
    rw [cov_erase hb x, if_pos ⟨h1, h2⟩] at this
    split at this <;> omega)
  refine ⟨d', h1, ⟨hs.good, ?_, ?_, ?_⟩, hs.diskBytes, hs.freeBytes, hs.cfgBytes, hs.autogrow⟩
  · intro x
    have := h.part x
    rw [cov_erase hb x] at this
    simp only
    rw [hs.cov, hs.diskBytes]
    omega
  · have := h.bytes
    simp only; rw [hs.freeBytes, hs.total]; omega
  · intro c hc
    exact h.pos c (List.mem_of_mem_erase hc)

theorem newBlocks_refuse (d : Disk) (sizes : List Nat) (hag : d.autogrow = false)
    (hlt : d.freeBytes < sizes.sum) : newBlocks d sizes = (d, .error .badExtAlloc) := by
  unfold newBlocks
  simp [hag, hlt]

theorem create_ok (cfg : Nat) (ag : Bool) : ∃ d, Disk.create cfg ag = .ok d ∧
    Inv ⟨d, []⟩ ∧ d.diskBytes = cfg ∧ d.freeBytes = cfg ∧ d.cfgBytes = cfg ∧ d.autogrow = ag := by
  have h0 : Inv ⟨⟨[], 0, 0, cfg, ag⟩, []⟩ := ⟨Good.nil, by simp, by simp, by simp⟩
  by_cases hc : cfg = 0
  · subst hc
    exact ⟨_, rfl, h0, rfl, rfl, rfl, rfl⟩
  · obtain ⟨d', h1, h2, h3, h4, h5, h6, _⟩ := growFile_ok h0 cfg (by omega)
    exact ⟨d', h1, h2, by simpa using h3, by simpa using h4, h5, h6⟩

/-- everything known about reachable states -/
structure RInv (cfg : Nat) (ag : Bool) (s : Sys) : Prop extends Inv s where
  acct : s.disk.freeBytes + liveBytes s.live = s.disk.diskBytes
  cfgB : s.disk.cfgBytes = cfg
  auto : s.disk.autogrow = ag

theorem reach_inv {cfg ag s} (h : Reach cfg ag s) : RInv cfg ag s := by
  induction h with
  | @init d hd =>
    obtain ⟨d', h1, h2, h3, h4, h5, h6⟩ := create_ok cfg ag
    rw [hd] at h1; cases h1
    exact ⟨h2, by simp [liveBytes]; omega, h5, h6⟩
  | @step s op hr hv ih =>
    cases op with
    | alloc sizes =>
      obtain ⟨h0, hs⟩ := hv
      by_cases hroom : s.disk.autogrow = true ∨ sizes.sum ≤ s.disk.freeBytes
      · obtain ⟨d', offs, he, hsp⟩ := newBlocks_ok s.disk s.live ih.toInv sizes h0 hs hroom
        simp only [Sys.step, he]
        refine ⟨hsp.inv, ?_, by rw [hsp.cfg, ih.cfgB], by rw [hsp.auto, ih.auto]⟩
        have := ih.acct; have := hsp.bytes; have := liveBytes_zip hsp.len
        simp only [liveBytes_append]; omega
      · have := newBlocks_refuse s.disk sizes (by simpa using fun h => hroom (Or.inl h)) (by omega)
        simp only [Sys.step, this]
        exact ih
    | free b =>
      obtain ⟨d', he, hi, h1, h2, h3, h4⟩ := delete_ok ih.toInv (show b ∈ s.live from hv)
      simp only [Sys.step, he]
      refine ⟨hi, ?_, by rw [h3, ih.cfgB], by rw [h4, ih.auto]⟩
      have := ih.acct; have := liveBytes_erase (show b ∈ s.live from hv)
      simp only; omega

/-- disjointness from counting -/
theorem disjoint_of_cov {l : List Block} (h : ∀ x, cov (l.map Block.reg) x ≤ 1) :
    l.Pairwise Block.Disjoint := by
  induction l with
  | nil => simp
  | cons b l ih =>
    rw [List.pairwise_cons]
    constructor
    · rintro c hc x ⟨hb, hx⟩
      have h1 := h x
      rw [List.map_cons, cov_cons, if_pos (by exact hb)] at h1
      have : 0 < cov (l.map Block.reg) x :=
        cov_pos.2 ⟨c.reg, List.mem_map.2 ⟨c, hc, rfl⟩, hx⟩
      omega
    · apply ih
      intro x
      have := h x
      rw [List.map_cons, cov_cons] at this; omega

theorem Inv.cov_le {s : Sys} (h : Inv s) (x : Nat) : cov (s.live.map Block.reg) x ≤ 1 := by
  have := h.part x; split at this <;> omega

theorem Inv.inside {s : Sys} (h : Inv s) {b : Block} (hb : b ∈ s.live) :
    b.off + b.size ≤ s.disk.diskBytes := by
  have h0 := h.pos b hb
  have h1 : 0 < cov (s.live.map Block.reg) (b.off + b.size - 1) :=
    cov_pos.2 ⟨b.reg, List.mem_map.2 ⟨b, hb, rfl⟩, by simp only [Block.reg]; omega,
      by simp only [Block.reg]; omega⟩
  have := h.part (b.off + b.size - 1)
  split at this <;> omega

theorem freeByte_iff {d : Disk} {x : Nat} : d.FreeByte x ↔ 0 < cov d.free x :=
  cov_pos.symm

/-- overlapping frees are detected -/
theorem addFreeRegion_overlap (d : Disk) (pos size x : Nat) (hg : Good d.free)
    (h1 : pos ≤ x) (h2 : x < pos + size) (hx : 0 < cov d.free x) :
    addFreeRegion d pos size = .error .badExtAlloc := by
  obtain ⟨m, fb, db, cb, ag⟩ := d
  simp only at hg hx
  have hsplit := split_at m hg pos
  have hub := upperBound_eq m pos
  have hpred : m.predOf pos = match (m.filter (fun r => r.1 ≤ pos)).getLast? with
    | some p => some p | none => m.upperBound pos := rfl
  have hL : ∀ r ∈ m.filter (fun r => decide (r.1 ≤ pos)), r.1 ≤ pos := by
    intro r hr; simpa using (List.mem_filter.1 hr).2
  have hR : ∀ r ∈ m.filter (fun r => decide (pos < r.1)), pos < r.1 := by
    intro r hr; simpa using (List.mem_filter.1 hr).2
  generalize hLe : m.filter (fun r => decide (r.1 ≤ pos)) = L at *
  generalize hRe : m.filter (fun r => decide (pos < r.1)) = R at *
  obtain ⟨r, hr, hr1, hr2⟩ := cov_pos.1 hx
  have hne : m.isEmpty = false := by
    cases m with
    | nil => simp at hr
    | cons => rfl
  by_cases hrp : r.1 ≤ pos
  · -- r is the predecessor
    have hrL : r ∈ L := by rw [← hLe]; simp [hr, hrp]
    rcases List.eq_nil_or_concat L with hnil | ⟨A, p, hLA⟩
    · rw [hnil] at hrL; simp at hrL
    · rw [List.concat_eq_append] at hLA
      have hp : p ∈ m := by rw [hsplit, hLA]; simp
      have hpp := hL p (by rw [hLA]; simp)
      have hrp' : r = p := by
        rw [hLA] at hrL
        rcases List.mem_append.1 hrL with hA | hA
        · have h1 := hg.1
          rw [hsplit, hLA] at h1
          simp only [List.pairwise_append] at h1
          have := h1.1.2.2 r hA p (by simp)
          omega
        · simpa using hA
      subst hrp'
      rw [hLA] at hpred
      simp only [List.getLast?_append, List.getLast?_singleton, Option.some_or] at hpred
      have : r.1 + r.2 > pos := by omega
      simp [addFreeRegion, hne, hpred, hpp, this]
  · have hrR : r ∈ R := by rw [← hRe]; simp [hr]; omega
    cases hRc : R with
    | nil => rw [hRc] at hrR; simp at hrR
    | cons s B =>
      rw [hRc] at hub
      simp only [List.head?_cons] at hub
      have hs1 := hR s (by rw [hRc]; simp)
      have hsr : s.1 ≤ r.1 := by
        rw [hRc] at hrR
        rcases List.mem_cons.1 hrR with rfl | hB
        · omega
        · have h1 := hg.1
          rw [hsplit, hRc] at h1
          simp only [List.pairwise_append, List.pairwise_cons] at h1
          have := h1.2.1.1 r hB
          omega
      have h3 : pos ≤ s.1 := by omega
      have h4 : pos + size > s.1 := by omega
      simp only [addFreeRegion, hne, hub, h3, h4]
      simp

/-! ### Uniform block size (for C06) -/

theorem aligned_of_cov {m : SpaceMap} (hg : Good m) {B : Nat} (hB : 0 < B)
    (h : ∀ x y, x / B = y / B → cov m x = cov m y) : ∀ r ∈ m, B ∣ r.1 ∧ B ∣ r.1 + r.2 := by
  intro r hr
  have hr0 := hg.2 r hr
  constructor
  · by_cases hd : B ∣ r.1
    · exact hd
    · exfalso
      have hpos : 0 < r.1 := Nat.pos_of_ne_zero (fun h0 => hd (h0 ▸ Nat.dvd_zero B))
      have hdiv : (r.1 - 1) / B = r.1 / B := by
        have h1 := Nat.div_add_mod r.1 B
        have h2 : 0 < r.1 % B := Nat.pos_of_ne_zero (fun h0 => hd (Nat.dvd_of_mod_eq_zero h0))
        have h3 := Nat.mod_lt r.1 hB
        apply Nat.div_eq_of_lt_le
        · rw [Nat.mul_comm]; omega
        · rw [Nat.add_mul, Nat.mul_comm (r.1 / B)]; omega
      have h1 : 0 < cov m r.1 := cov_pos.2 ⟨r, hr, by omega, by omega⟩
      rw [← h _ _ hdiv] at h1
      obtain ⟨r', hr', h2, h3⟩ := cov_pos.1 h1
      rcases pairwise_mem hg.1 hr hr' with rfl | hlt | hlt <;> omega
  · by_cases hd : B ∣ r.1 + r.2
    · exact hd
    · exfalso
      have hdiv : (r.1 + r.2 - 1) / B = (r.1 + r.2) / B := by
        have h1 := Nat.div_add_mod (r.1 + r.2) B
        have h2 : 0 < (r.1 + r.2) % B := Nat.pos_of_ne_zero (fun h0 => hd (Nat.dvd_of_mod_eq_zero h0))
        have h3 := Nat.mod_lt (r.1 + r.2) hB
        apply Nat.div_eq_of_lt_le
        · rw [Nat.mul_comm]; omega
        · rw [Nat.add_mul, Nat.mul_comm ((r.1 + r.2) / B)]; omega
      have h1 : 0 < cov m (r.1 + r.2 - 1) := cov_pos.2 ⟨r, hr, by omega, by omega⟩
      rw [h _ _ hdiv] at h1
      obtain ⟨r', hr', h2, h3⟩ := cov_pos.1 h1
      rcases pairwise_mem hg.1 hr hr' with rfl | hlt | hlt <;> omega

theorem cov_block_const {l : List Region} {B : Nat} (hB : 0 < B)
    (h : ∀ r ∈ l, B ∣ r.1 ∧ B ∣ r.1 + r.2) {x y : Nat} (hxy : x / B = y / B) :
    cov l x = cov l y := by
  induction l with
  | nil => rfl
  | cons r l ih =>
    rw [cov_cons, cov_cons, ih (fun r hr => h r (by simp [hr]))]
    obtain ⟨⟨a, ha⟩, ⟨b, hb⟩⟩ := h r (by simp)
    have e : ∀ c z, B * c ≤ z ↔ c ≤ z / B := by
      intro c z; rw [Nat.le_div_iff_mul_le hB, Nat.mul_comm]
    have : (r.1 ≤ x ∧ x < r.1 + r.2) ↔ (r.1 ≤ y ∧ y < r.1 + r.2) := by
      rw [hb, ha, ← Nat.not_le, ← Nat.not_le, e, e, e, e, hxy]
    simp [this]

/-- all live blocks are `B`-sized and aligned, and so is the disk -/
structure Uni (B : Nat) (s : Sys) : Prop where
  disk : B ∣ s.disk.diskBytes
  live : ∀ b ∈ s.live, b.size = B ∧ B ∣ b.off

theorem Uni.free {B : Nat} (hB : 0 < B) {s : Sys} (hu : Uni B s) (hi : Inv s) :
    ∀ r ∈ s.disk.free, B ∣ r.1 ∧ B ∣ r.1 + r.2 := by
  apply aligned_of_cov hi.good hB
  intro x y hxy
  have h1 := hi.part x; have h2 := hi.part y
  have h3 : cov (s.live.map Block.reg) x = cov (s.live.map Block.reg) y := by
    apply cov_block_const hB _ hxy
    intro r hr
    obtain ⟨b, hb, rfl⟩ := List.mem_map.1 hr
    obtain ⟨h4, h5⟩ := hu.live b hb
    simp only [Block.reg, h4]
    exact ⟨h5, Nat.dvd_add h5 (Nat.dvd_refl _)⟩
  obtain ⟨k, hk⟩ := hu.disk
  have h4 : x < s.disk.diskBytes ↔ y < s.disk.diskBytes := by
    rw [hk, ← Nat.not_le, ← Nat.not_le, Nat.mul_comm, ← Nat.le_div_iff_mul_le hB,
      ← Nat.le_div_iff_mul_le hB, hxy]
  simp only [h4] at h1
  omega

theorem layout_aligned {B pos : Nat} (hp : B ∣ pos) {sizes : List Nat} (hs : ∀ z ∈ sizes, z = B) :
    ∀ b ∈ List.zipWith Block.mk (layout pos sizes) sizes, b.size = B ∧ B ∣ b.off := by
  induction sizes generalizing pos with
  | nil => simp [layout]
  | cons s ss ih =>
    intro b hb
    have hsB := hs s (by simp)
    simp only [layout, List.zipWith_cons_cons, List.mem_cons] at hb
    rcases hb with rfl | hb
    · exact ⟨hsB, hp⟩
    · exact ih (Nat.dvd_add hp (by rw [hsB]; exact Nat.dvd_refl _))
        (fun z hz => hs z (by simp [hz])) b hb

theorem exists_region_of_total {m : List Region} (h : 0 < total m) : ∃ r, r ∈ m := by
  cases m with
  | nil => simp at h
  | cons r m => exact ⟨r, by simp⟩

theorem newBlocks_uni {B : Nat} (hB : 0 < B) (d : Disk) (live : List Block) (h : Inv ⟨d, live⟩)
    (hu : Uni B ⟨d, live⟩) (sizes : List Nat) (h0 : sizes ≠ []) (hs : ∀ z ∈ sizes, z = B)
    (hroom : sizes.sum ≤ d.freeBytes) {d' offs} (he : newBlocks d sizes = (d', .ok offs)) :
    d'.diskBytes = d.diskBytes ∧
    ∀ b ∈ List.zipWith Block.mk offs sizes, b.size = B ∧ B ∣ b.off := by
  induction hn : sizes.length using Nat.strongRecOn generalizing d live sizes d' offs with
  | ind n ih =>
  have hsp : ∀ z ∈ sizes, 0 < z := fun z hz => by rw [hs z hz]; exact hB
  have hpos := sum_pos_of h0 hsp
  have hnlt : ¬ d.freeBytes < sizes.sum := by omega
  unfold newBlocks at he
  simp only [hnlt, if_false] at he
  cases hf : findSpace d.free sizes.sum with
  | some r =>
    obtain ⟨hr, hle⟩ := findSpace_some hf
    simp only [hf, ge_iff_le, hroom, if_true, Prod.mk.injEq, Except.ok.injEq] at he
    obtain ⟨rfl, rfl⟩ := he
    refine ⟨rfl, layout_aligned (hu.free hB h r hr).1 hs⟩
  | none =>
    by_cases hlen : sizes.length = 1
    · -- impossible: a free region of at least one block exists
      exfalso
      have hb := h.bytes
      obtain ⟨r, hr⟩ := exists_region_of_total (m := d.free) (by simp only at hb; omega)
      have hsum : sizes.sum = B := by
        match sizes, hlen with
        | [z], _ => simp [hs z (by simp)]
      obtain ⟨h1, h2⟩ := hu.free hB h r hr
      have h3 : B ∣ r.2 := (Nat.dvd_add_right h1).1 h2
      have h4 := Nat.le_of_dvd (h.good.2 r hr) h3
      obtain ⟨r', hr'⟩ := findSpace_of_mem (m := d.free) (req := sizes.sum) ⟨r, hr, by omega⟩
      rw [hf] at hr'; cases hr'
    · have hgt : sizes.length > 1 := by
        have : sizes.length ≠ 0 := by simpa using h0
        omega
      simp only [hf, hlen, if_false, hgt, dite_true] at he
      generalize hmid : sizes.length / 2 = mid at he
      have hsplit : sizes.take mid ++ sizes.drop mid = sizes := List.take_append_drop _ _
      have hsum : (sizes.take mid).sum + (sizes.drop mid).sum = sizes.sum := by
        rw [← List.sum_append, hsplit]
      have hne1 : sizes.take mid ≠ [] := by
        intro hc; have := congrArg List.length hc
        simp only [List.length_take, List.length_nil] at this; omega
      have hne2 : sizes.drop mid ≠ [] := by
        intro hc; have := congrArg List.length hc
        simp only [List.length_drop, List.length_nil] at this; omega
      obtain ⟨d3, os1, he3, hs3⟩ := newBlocks_ok d live h (sizes.take mid) hne1
        (fun z hz => hsp z (List.mem_of_mem_take hz)) (Or.inr (by omega))
      obtain ⟨d4, os2, he4, hs4⟩ := newBlocks_ok d3 _ hs3.inv (sizes.drop mid) hne2
        (fun z hz => hsp z (List.mem_of_mem_drop hz))
        (Or.inr (by have := hs3.bytes; have := hs3.mono; omega))
      obtain ⟨e1, a1⟩ := ih (sizes.take mid).length (by simp; omega) d live h hu (sizes.take mid) hne1
        (fun z hz => hs z (List.mem_of_mem_take hz)) (by omega) he3 rfl
      have hu3 : Uni B ⟨d3, List.zipWith Block.mk os1 (sizes.take mid) ++ live⟩ := by
        constructor
        · simp only; rw [e1]; exact hu.disk
        · intro b hb
          rcases List.mem_append.1 hb with hb | hb
          · exact a1 b hb
          · exact hu.live b hb
      obtain ⟨e2, a2⟩ := ih (sizes.drop mid).length (by simp; omega) d3 _ hs3.inv hu3
        (sizes.drop mid) hne2
        (fun z hz => hs z (List.mem_of_mem_drop hz))
        (by have := hs3.bytes; have := hs3.mono; omega) he4 rfl
      simp only [he3, he4, Prod.mk.injEq, Except.ok.injEq] at he
      obtain ⟨rfl, rfl⟩ := he
      refine ⟨by omega, ?_⟩
      have hz : List.zipWith Block.mk (os1 ++ os2) sizes
            = List.zipWith Block.mk os1 (sizes.take mid) ++ List.zipWith Block.mk os2 (sizes.drop mid) := by
          conv => lhs; rw [← hsplit]
          exact List.zipWith_append hs3.len
      rw [hz]
      intro b hb
      rcases List.mem_append.1 hb with hb | hb
      · exact a1 b hb
      · exact a2 b hb

end Foxxll.Alloc
