import Verif.Proofs.Alloc

set_option linter.unusedSimpArgs false

namespace Foxxll.Alloc

def Block.reg (b : Block) : Region := (b.off, b.size)

theorem cov_pos {m : List Region} {x : Nat} :
    0 < cov m x ↔ ∃ r ∈ m, r.1 ≤ x ∧ x < r.1 + r.2 := by
  simp [cov, List.countP_pos_iff]

theorem pairwise_mem {α} {R : α → α → Prop} {l : List α} (h : l.Pairwise R) {a b : α}
    (ha : a ∈ l) (hb : b ∈ l) : a = b ∨ R a b ∨ R b a := by
  induction l with
  | nil => simp at ha
  | cons c l ih =>
    rw [List.pairwise_cons] at h
    rcases List.mem_cons.1 ha with rfl | ha1 <;> rcases List.mem_cons.1 hb with rfl | hb1
    · simp
    · exact Or.inr (Or.inl (h.1 _ hb1))
    · exact Or.inr (Or.inr (h.1 _ ha1))
    · exact ih h.2 ha1 hb1

/-- A covered interval lies in one region of a coalesced map. -/
theorem Good.one_region {m : SpaceMap} (hg : Good m) {a b : Nat} (hab : a < b)
    (h : ∀ x, a ≤ x → x < b → 0 < cov m x) :
    ∃ r ∈ m, r.1 ≤ a ∧ b ≤ r.1 + r.2 := by
  obtain ⟨r, hr, h1, h2⟩ := cov_pos.1 (h a (Nat.le_refl _) hab)
  refine ⟨r, hr, h1, ?_⟩
  by_cases hb : b ≤ r.1 + r.2
  · exact hb
  · exfalso
    obtain ⟨r', hr', h3, h4⟩ := cov_pos.1 (h (r.1 + r.2) (by omega) (by omega))
    rcases pairwise_mem hg.1 hr hr' with rfl | hlt | hlt <;> omega

theorem Good.cov_le_one {m : SpaceMap} (hg : Good m) (x : Nat) : cov m x ≤ 1 := by
  obtain ⟨h1, h2⟩ := hg
  induction m with
  | nil => simp
  | cons r m ih =>
    rw [List.pairwise_cons] at h1
    have := ih h1.2 (fun r hr => h2 r (by simp [hr]))
    rw [cov_cons]
    split
    · rename_i hx
      have : ¬ 0 < cov m x := by
        rw [cov_pos]; rintro ⟨r', hr', h3, h4⟩
        have := h1.1 r' hr'; omega
      omega
    · omega

/-- The coalesced map of an interval is unique. -/
theorem Good.canonical {m : SpaceMap} (hg : Good m) (T : Nat)
    (h : ∀ x, cov m x = if x < T then 1 else 0) : m = if T = 0 then [] else [(0, T)] := by
  have hlt : ∀ r ∈ m, r.1 + r.2 ≤ T := by
    intro r hr
    have h0 := hg.2 r hr
    have : 0 < cov m (r.1 + r.2 - 1) := cov_pos.2 ⟨r, hr, by omega, by omega⟩
    rw [h] at this; split at this <;> omega
  by_cases hT : T = 0
  · rw [if_pos hT]
    cases m with
    | nil => rfl
    | cons r m => have := hlt r (by simp); have := hg.2 r (by simp); omega
  · rw [if_neg hT]
    obtain ⟨r, hr, h1, h2⟩ := hg.one_region (a := 0) (b := T) (by omega) (by
      intro x _ hx; rw [h, if_pos hx]; omega)
    have hrT := hlt r hr
    obtain ⟨A, B, rfl⟩ := List.append_of_mem hr
    obtain ⟨hp, hq⟩ := hg
    simp only [List.pairwise_append, List.pairwise_cons] at hp
    have hA : A = [] := by
      cases A with
      | nil => rfl
      | cons a A => have := hp.2.2 a (by simp) r (by simp); omega
    have hB : B = [] := by
      cases B with
      | nil => rfl
      | cons a A => have := hp.2.1.1 a (by simp); have := hlt a (by simp); omega
    subst hA; subst hB
    obtain ⟨r1, r2⟩ := r
    simp at *; omega

/-- The allocator invariant relating disk and live blocks. -/
structure Inv (s : Sys) : Prop where
  good : Good s.disk.free
  part : ∀ x, cov s.disk.free x + cov (s.live.map Block.reg) x
    = if x < s.disk.diskBytes then 1 else 0
  bytes : s.disk.freeBytes = total s.disk.free
  pos : ∀ b ∈ s.live, 0 < b.size

theorem growFile_ok {d : Disk} {live : List Block} (h : Inv ⟨d, live⟩) (e : Nat) (he : 0 < e) :
    ∃ d', growFile d e = .ok d' ∧ Inv ⟨d', live⟩ ∧ d'.diskBytes = d.diskBytes + e ∧
      d'.freeBytes = d.freeBytes + e ∧ d'.cfgBytes = d.cfgBytes ∧ d'.autogrow = d.autogrow ∧
      (∃ r ∈ d'.free, e ≤ r.2) := by
  have hno : ∀ x, d.diskBytes ≤ x → x < d.diskBytes + e → cov d.free x = 0 := by
    intro x hx _
    have := h.part x
    simp only at this
    rw [if_neg (by omega)] at this; omega
  obtain ⟨d1, h1, hs⟩ := addFreeRegion_ok d d.diskBytes e h.good he hno
  have hinv : Inv ⟨{ d1 with diskBytes := d1.diskBytes + e }, live⟩ := by
    constructor
    · exact hs.good
    · intro x
      have hp := h.part x
      simp only at hp ⊢
      rw [hs.cov, hs.diskBytes]
      repeat' split
      all_goals (split at hp <;> omega)
    · have := h.bytes; simp only at this ⊢; rw [hs.total, hs.freeBytes]; omega
    · exact h.pos
  refine ⟨{ d1 with diskBytes := d1.diskBytes + e }, ?_, hinv, ?_, ?_, hs.cfgBytes, hs.autogrow, ?_⟩
  · simp only [growFile, if_neg (Nat.pos_iff_ne_zero.1 he), h1]
  · simp [hs.diskBytes]
  · simp [hs.freeBytes]
  · obtain ⟨r, hr, h3, h4⟩ := hs.good.one_region (a := d.diskBytes) (b := d.diskBytes + e) (by omega) (by
      intro x h5 h6; rw [hs.cov, if_pos ⟨h5, h6⟩]; omega)
    exact ⟨r, hr, by omega⟩

theorem layout_length (pos sizes) : (layout pos sizes).length = sizes.length := by
  induction sizes generalizing pos with
  | nil => rfl
  | cons s ss ih => simp [layout, ih]

theorem cov_layout (pos : Nat) (sizes : List Nat) (x : Nat) :
    cov ((List.zipWith Block.mk (layout pos sizes) sizes).map Block.reg) x
      = if pos ≤ x ∧ x < pos + sizes.sum then 1 else 0 := by
  induction sizes generalizing pos with
  | nil => simp [layout]; grind
  | cons s ss ih =>
    simp only [layout, List.zipWith_cons_cons, List.map_cons, cov_cons, ih, Block.reg, List.sum_cons]
    grind

theorem mem_zip_size {offs sizes : List Nat} {b : Block}
    (h : b ∈ List.zipWith Block.mk offs sizes) : b.size ∈ sizes := by
  induction offs generalizing sizes with
  | nil => simp at h
  | cons o os ih =>
    cases sizes with
    | nil => simp at h
    | cons s ss =>
      simp only [List.zipWith_cons_cons, List.mem_cons] at h ⊢
      rcases h with rfl | h
      · simp
      · exact Or.inr (ih h)

/-- taking `req` bytes from the front of a free region -/
theorem take_region {m : SpaceMap} (hg : Good m) {r : Region} (hr : r ∈ m) {req : Nat}
    (h0 : 0 < req) (hle : req ≤ r.2) :
    let m' := if r.2 > req then (SpaceMap.erase m r.1).put (r.1 + req) (r.2 - req)
      else SpaceMap.erase m r.1
    Good m' ∧ total m' + req = total m ∧
    ∀ x, cov m x = cov m' x + if r.1 ≤ x ∧ x < r.1 + req then 1 else 0 := by
  obtain ⟨A, B, rfl⟩ := List.append_of_mem hr
  obtain ⟨h1, h2⟩ := hg
  simp only [List.pairwise_append, List.pairwise_cons] at h1
  obtain ⟨hA, ⟨hrB, hB⟩, hAr⟩ := h1
  have hArr : ∀ a ∈ A, a.1 + a.2 < r.1 := fun a ha => hAr a ha r (by simp)
  have her : SpaceMap.erase (A ++ r :: B) r.1 = A ++ B :=
    erase_mid A B r.1 r.2 (by intro a ha; have := hArr a ha; omega)
      (by intro a ha; have := hrB a ha; omega)
  simp only [her]
  split
  · rename_i hgt
    have hput : SpaceMap.put (A ++ B) (r.1 + req) (r.2 - req)
        = A ++ (r.1 + req, r.2 - req) :: B :=
      put_mid A B _ _ (by intro a ha; have := hArr a ha; omega)
        (by intro a ha; have := hrB a ha; omega)
    rw [hput]
    refine ⟨⟨?_, ?_⟩, ?_, ?_⟩
    · simp only [List.pairwise_append, List.pairwise_cons]
      refine ⟨hA, ⟨fun a ha => ?_, hB⟩, fun a ha b hb => ?_⟩
      · have := hrB a ha; (try dsimp only); omega
      · have := hArr a ha
        rcases List.mem_cons.1 hb with rfl | hb
        · dsimp only; omega
        · have := hrB b hb; omega
    · intro a ha
      simp at ha
      rcases ha with ha | rfl | ha
      · exact h2 a (by simp [ha])
      · dsimp only; omega
      · exact h2 a (by simp [ha])
    · simp only [total_append, total_cons]; omega
    · intro x
      simp only [cov_append, cov_cons]
      repeat' split
      all_goals omega
  · rename_i hgt
    refine ⟨⟨?_, ?_⟩, ?_, ?_⟩
    · simp only [List.pairwise_append, List.pairwise_cons]
      refine ⟨hA, hB, fun a ha b hb => ?_⟩
      have := hArr a ha
      have := hrB b hb; omega
    · intro a ha
      simp at ha
      rcases ha with ha | ha
      · exact h2 a (by simp [ha])
      · exact h2 a (by simp [ha])
    · simp only [total_append, total_cons]; omega
    · intro x
      simp only [cov_append, cov_cons]
      repeat' split
      all_goals omega

/-- what a successful `newBlocks` achieves -/
structure NewSpec (d d' : Disk) (live : List Block) (sizes offs : List Nat) : Prop where
  inv : Inv ⟨d', List.zipWith Block.mk offs sizes ++ live⟩
  len : offs.length = sizes.length
  mono : d.diskBytes ≤ d'.diskBytes
  bytes : d'.freeBytes + sizes.sum + d.diskBytes = d.freeBytes + d'.diskBytes
  cfg : d'.cfgBytes = d.cfgBytes
  auto : d'.autogrow = d.autogrow

theorem total_ge_mem {m : List Region} {r} (h : r ∈ m) : r.2 ≤ total m := by
  induction m with
  | nil => simp at h
  | cons a m ih =>
    rcases List.mem_cons.1 h with rfl | h
    · simp
    · have := ih h; simp; omega

theorem sum_pos_of {sizes : List Nat} (h0 : sizes ≠ []) (h : ∀ z ∈ sizes, 0 < z) :
    0 < sizes.sum := by
  cases sizes with
  | nil => simp at h0
  | cons a l => have := h a (by simp); simp; omega

/-- allocation from a found region -/
theorem carve {d : Disk} {live : List Block} (h : Inv ⟨d, live⟩) {sizes : List Nat}
    (h0 : sizes ≠ []) (hs : ∀ z ∈ sizes, 0 < z) {r : Region} (hr : r ∈ d.free)
    (hle : sizes.sum ≤ r.2) :
    let m := d.free.erase r.1
    let m' := if r.2 > sizes.sum then m.put (r.1 + sizes.sum) (r.2 - sizes.sum) else m
    sizes.sum ≤ d.freeBytes ∧
    NewSpec d { d with free := m', freeBytes := d.freeBytes - sizes.sum } live sizes
      (layout r.1 sizes) := by
  have hpos := sum_pos_of h0 hs
  have htr := take_region h.good hr hpos hle
  dsimp only at htr
  obtain ⟨hg, ht, hc⟩ := htr
  have hfb : sizes.sum ≤ d.freeBytes := by
    have := total_ge_mem hr; have hb := h.bytes; simp only at hb; omega
  refine ⟨hfb, ⟨⟨hg, ?_, ?_, ?_⟩, layout_length _ _, Nat.le_refl _, ?_, rfl, rfl⟩⟩
  · intro x
    have hp := h.part x
    have := hc x
    simp only [List.map_append, cov_append, cov_layout] at hp ⊢
    omega
  · have hb := h.bytes; simp only at hb ⊢; omega
  · intro b hb
    simp only [List.mem_append] at hb
    rcases hb with hb | hb
    · exact hs _ (mem_zip_size hb)
    · exact h.pos b hb
  · simp only; omega

theorem findSpace_some {m : SpaceMap} {req r} (h : findSpace m req = some r) :
    r ∈ m ∧ req ≤ r.2 := by
  unfold findSpace at h
  exact ⟨List.mem_of_find?_eq_some h, by simpa using List.find?_some h⟩

theorem findSpace_of_mem {m : SpaceMap} {req : Nat} (h : ∃ r ∈ m, req ≤ r.2) :
    ∃ r, findSpace m req = some r := by
  obtain ⟨r, hr, hle⟩ := h
  cases hf : findSpace m req with
  | some r => exact ⟨r, rfl⟩
  | none =>
    unfold findSpace at hf
    rw [List.find?_eq_none] at hf
    have := hf r hr; simp at this; omega

theorem zipWith_append_len {α β γ} (f : α → β → γ) (a a' : List α) (b b' : List β)
    (h : a.length = b.length) :
    List.zipWith f (a ++ a') (b ++ b') = List.zipWith f a b ++ List.zipWith f a' b' :=
  List.zipWith_append h

theorem newBlocks_ok (d : Disk) (live : List Block) (h : Inv ⟨d, live⟩) (sizes : List Nat)
    (h0 : sizes ≠ []) (hs : ∀ z ∈ sizes, 0 < z)
    (hroom : d.autogrow = true ∨ sizes.sum ≤ d.freeBytes) :
    ∃ d' offs, newBlocks d sizes = (d', .ok offs) ∧ NewSpec d d' live sizes offs := by
  induction hn : sizes.length using Nat.strongRecOn generalizing d live sizes with
  | ind n ih =>
  have hpos := sum_pos_of h0 hs
  -- first phase: grow if needed
  obtain ⟨d1, hgrow, hinv1, hm1, hb1, hc1, ha1, hroom1⟩ : ∃ d1,
      (if d.freeBytes < sizes.sum then
        if d.autogrow then growFile d sizes.sum else Except.error Err.badExtAlloc
       else .ok d) = .ok d1 ∧ Inv ⟨d1, live⟩ ∧ d.diskBytes ≤ d1.diskBytes ∧
       d1.freeBytes + d.diskBytes = d.freeBytes + d1.diskBytes ∧ d1.cfgBytes = d.cfgBytes ∧
       d1.autogrow = d.autogrow ∧ sizes.sum ≤ d1.freeBytes := by
    by_cases hlt : d.freeBytes < sizes.sum
    · rcases hroom with hag | hle
      · obtain ⟨d', hg, hi, h1, h2, h3, h4, _⟩ := growFile_ok h sizes.sum hpos
        exact ⟨d', by simp [hlt, hag, hg], hi, by omega, by omega, h3, h4, by omega⟩
      · omega
    · exact ⟨d, by simp [hlt], h, Nat.le_refl _, by omega, rfl, rfl, by omega⟩
  unfold newBlocks
  simp only [hgrow]
  cases hf : findSpace d1.free sizes.sum with
  | some r =>
    obtain ⟨hr, hle⟩ := findSpace_some hf
    obtain ⟨hfb, hsp⟩ := carve hinv1 h0 hs hr hle
    simp only [hf, ge_iff_le, hfb, if_true]
    exact ⟨_, _, rfl, hsp.inv, hsp.len, by have := hsp.mono; omega,
      by have := hsp.bytes; omega, by rw [hsp.cfg, hc1], by rw [hsp.auto, ha1]⟩
  | none =>
    by_cases hlen : sizes.length = 1
    · obtain ⟨d2, hg2, hi2, hd2, hfb2, hc2, ha2, hex⟩ := growFile_ok hinv1 sizes.sum hpos
      obtain ⟨r, hf2⟩ := findSpace_of_mem hex
      obtain ⟨hr, hle⟩ := findSpace_some hf2
      obtain ⟨hfb, hsp⟩ := carve hi2 h0 hs hr hle
      simp only [hf, hlen, if_true, hg2, hf2, ge_iff_le, hfb]
      exact ⟨_, _, rfl, hsp.inv, hsp.len, by have := hsp.mono; omega,
        by have := hsp.bytes; omega, by rw [hsp.cfg, hc2, hc1], by rw [hsp.auto, ha2, ha1]⟩
    · have hgt : sizes.length > 1 := by
        have : sizes.length ≠ 0 := by simpa using h0
        omega
      simp only [hf, hlen, if_false, hgt, dite_true]
      generalize hmid : sizes.length / 2 = mid
      have hsplit : sizes.take mid ++ sizes.drop mid = sizes := List.take_append_drop _ _
      have hsum : (sizes.take mid).sum + (sizes.drop mid).sum = sizes.sum := by
        rw [← List.sum_append, hsplit]
      obtain ⟨d3, os1, he3, hs3⟩ := ih (sizes.take mid).length (by simp; omega) d1 live hinv1
        (sizes.take mid) (by intro hc; have := congrArg List.length hc; simp only [List.length_take, List.length_nil] at this; omega)
        (fun z hz => hs z (List.mem_of_mem_take hz)) (Or.inr (by omega)) rfl
      obtain ⟨d4, os2, he4, hs4⟩ := ih (sizes.drop mid).length (by simp; omega) d3
        (List.zipWith Block.mk os1 (sizes.take mid) ++ live) hs3.inv
        (sizes.drop mid) (by intro hc; have := congrArg List.length hc; simp only [List.length_drop, List.length_nil] at this; omega)
        (fun z hz => hs z (List.mem_of_mem_drop hz))
        (Or.inr (by have := hs3.bytes; have := hs3.mono; omega)) rfl
      simp only [he3, he4]
      refine ⟨d4, os1 ++ os2, rfl, ?_, ?_, ?_, ?_, ?_, ?_⟩
      · have hz : List.zipWith Block.mk (os1 ++ os2) sizes
            = List.zipWith Block.mk os1 (sizes.take mid) ++ List.zipWith Block.mk os2 (sizes.drop mid) := by
          conv => lhs; rw [← hsplit]
          exact List.zipWith_append hs3.len
        have hi := hs4.inv
        rw [hz]
        refine ⟨hi.good, ?_, hi.bytes, ?_⟩
        · intro x
          have := hi.part x
          simp only [List.map_append, cov_append] at this ⊢
          omega
        · intro b hb
          apply hi.pos
          simp only [List.mem_append] at hb ⊢
          grind
      · have h5 := hs3.len; have h6 := hs4.len
        have := congrArg List.length hsplit
        simp only [List.length_append] at this ⊢
        omega
      · have := hs3.mono; have := hs4.mono; omega
      · have := hs3.bytes; have := hs4.bytes; omega
      · rw [hs4.cfg, hs3.cfg, hc1]
      · rw [hs4.auto, hs3.auto, ha1]

end Foxxll.Alloc
