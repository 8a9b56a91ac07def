import Verif.Proofs.Alloc64

set_option linter.unusedSimpArgs false

namespace Foxxll.Alloc64
open Foxxll.Alloc

/-- carving the request out of a found region -/
theorem carve_eq {d : Disk} {live : List Block} (h : Inv ⟨d, live⟩) {sizes : List Nat}
    {r : Region} (hr : r ∈ d.free) (hle : sizes.sum ≤ r.2) (hdb : d.diskBytes < W) :
    w (r.1 + sizes.sum) = r.1 + sizes.sum ∧ layout64 r.1 sizes = layout r.1 sizes := by
  have := region_le h r hr
  simp only at this
  exact ⟨w_lt (by omega), layout64_eq _ _ (by omega)⟩

/-- the disk after carving `n` bytes out of region `r` -/
def taken (d : Disk) (r : Region) (n : Nat) : Disk :=
  { d with
    free := if r.2 > n then (d.free.erase r.1).put (r.1 + n) (r.2 - n) else d.free.erase r.1
    freeBytes := d.freeBytes - n }

/-- what a refused or failed allocation leaves -/
structure FailSpec (s s' : Disk64) (L : List Block) (sizes : List Nat) (e : Err64) : Prop where
  lost : ∃ k < sizes.length, ∃ lost : List Block, lost.map Block.size = sizes.take k ∧
    Inv ⟨s'.disk, lost ++ L⟩ ∧
    s'.disk.freeBytes + liveBytes lost + s.disk.diskBytes = s.disk.freeBytes + s'.disk.diskBytes
  mono : s.disk.diskBytes ≤ s'.disk.diskBytes
  le : s'.disk.diskBytes ≤ s.disk.diskBytes + sizes.sum
  cfg : s'.disk.cfgBytes = s.disk.cfgBytes
  auto : s'.disk.autogrow = s.disk.autogrow
  file : s.disk.diskBytes ≤ s.file → s'.disk.diskBytes ≤ s'.file
  err : e = .io ∨ (e = .alloc .badExtAlloc ∧ s' = s ∧ s.disk.autogrow = false ∧
    s.disk.freeBytes < sizes.sum)

theorem fail_same {s : Disk64} {L : List Block} {sizes : List Nat} {e : Err64}
    (h : Inv ⟨s.disk, L⟩) (h0 : sizes ≠ [])
    (he : e = .io ∨ (e = .alloc .badExtAlloc ∧ s.disk.autogrow = false ∧
      s.disk.freeBytes < sizes.sum)) : FailSpec s s L sizes e where
  lost := ⟨0, by cases sizes with
    | nil => exact absurd rfl h0
    | cons a l => simp, [], by simp, by simpa using h, by simp [liveBytes]⟩
  mono := Nat.le_refl _
  le := Nat.le_add_right _ _
  cfg := rfl
  auto := rfl
  file := id
  err := by rcases he with he | ⟨h1, h2, h3⟩
            · exact Or.inl he
            · exact Or.inr ⟨h1, rfl, h2, h3⟩

/-- what a successful allocation leaves -/
structure OkSpec (s s' : Disk64) (L : List Block) (sizes offs : List Nat) : Prop where
  spec : NewSpec s.disk s'.disk L sizes offs
  le : s'.disk.diskBytes ≤ s.disk.diskBytes + sizes.sum
  file : s.disk.diskBytes ≤ s.file → s'.disk.diskBytes ≤ s'.file
  eq : newBlocks s.disk sizes = (s'.disk, .ok offs)

theorem new_spec (can : Nat → Bool) (s : Disk64) (L : List Block) (h : Inv ⟨s.disk, L⟩)
    (sizes : List Nat) (h0 : sizes ≠ []) (hs : ∀ z ∈ sizes, 0 < z)
    (hfit : s.disk.diskBytes + sizes.sum < W) :
    (∃ s' offs, newBlocks64 can s sizes = (s', .ok offs) ∧ OkSpec s s' L sizes offs) ∨
    (∃ s' e, newBlocks64 can s sizes = (s', .error e) ∧ FailSpec s s' L sizes e) := by
  induction hn : sizes.length using Nat.strongRecOn generalizing s L sizes with
  | ind n ih =>
  obtain ⟨d, f⟩ := s
  simp only at h hfit
  have hpos := sum_pos_of h0 hs
  have hreq := reqSize_eq (sizes := sizes) (by omega)
  by_cases hlt : d.freeBytes < sizes.sum
  · by_cases hag : d.autogrow = true
    · cases hc : can (d.diskBytes + sizes.sum) with
      | false =>
        right
        refine ⟨⟨d, f⟩, .io, ?_, fail_same h h0 (Or.inl rfl)⟩
        unfold newBlocks64
        simp only [hreq, hlt, hag, if_true, grow_io hpos hfit hc]
      | true =>
        left
        obtain ⟨d1, hg, hg64, h1⟩ := grow_eq h hpos hfit hc (f := f)
        obtain ⟨d1', hg', hi, -, h2, h3, h4, hex⟩ := growFile_ok h sizes.sum hpos
        rw [hg] at hg'; cases hg'
        obtain ⟨r, hf⟩ := findSpace_of_mem hex
        obtain ⟨hr, hle⟩ := findSpace_some hf
        obtain ⟨hfb, hsp⟩ := carve hi h0 hs hr hle
        obtain ⟨hw, hl⟩ := carve_eq hi hr hle (by omega)
        have hN : newBlocks d sizes = (taken d1 r sizes.sum, .ok (layout r.1 sizes)) := by
          unfold newBlocks
          simp only [hlt, hag, if_true, hg, hf, ge_iff_le, hfb, taken]
        refine ⟨⟨taken d1 r sizes.sum, d.diskBytes + sizes.sum⟩,
          layout r.1 sizes, ?_, ⟨⟨hsp.inv, hsp.len, ?_, ?_, ?_, ?_⟩, ?_, ?_, hN⟩⟩
        · unfold newBlocks64
          simp only [hreq, hlt, hag, if_true, hg64, hf, ge_iff_le, hfb, hw, hl, taken]
        · have := hsp.mono; simp only [taken] at this ⊢; omega
        · have := hsp.bytes; simp only [taken] at this ⊢; omega
        · exact h3
        · exact h4
        · simp only [taken]; omega
        · intro _; simp only [taken]; omega
    · right
      refine ⟨⟨d, f⟩, .alloc .badExtAlloc, ?_, fail_same h h0 (Or.inr ⟨rfl, by simpa using hag, hlt⟩)⟩
      unfold newBlocks64
      simp [hreq, hlt, hag]
  · cases hf : findSpace d.free sizes.sum with
    | some r =>
      left
      obtain ⟨hr, hle⟩ := findSpace_some hf
      obtain ⟨hfb, hsp⟩ := carve h h0 hs hr hle
      obtain ⟨hw, hl⟩ := carve_eq h hr hle (by omega)
      have hN : newBlocks d sizes = (taken d r sizes.sum, .ok (layout r.1 sizes)) := by
        unfold newBlocks
        simp only [hlt, if_false, hf, ge_iff_le, hfb, if_true, taken]
      refine ⟨⟨taken d r sizes.sum, f⟩, layout r.1 sizes, ?_, ⟨hsp, ?_, ?_, hN⟩⟩
      · unfold newBlocks64
        simp only [hreq, hlt, if_false, hf, ge_iff_le, hfb, if_true, hw, hl, taken]
      · simp only [taken]; omega
      · exact id
    | none =>
      by_cases hlen : sizes.length = 1
      · have hhd := head_eq_sum hlen
        cases hc : can (d.diskBytes + sizes.sum) with
        | false =>
          right
          refine ⟨⟨d, f⟩, .io, ?_, fail_same h h0 (Or.inl rfl)⟩
          unfold newBlocks64
          simp only [hreq, hlt, if_false, hf, hlen, if_true, hhd, grow_io hpos hfit hc]
        | true =>
          left
          obtain ⟨d1, hg, hg64, h1⟩ := grow_eq h hpos hfit hc (f := f)
          obtain ⟨d1', hg', hi, -, h2, h3, h4, hex⟩ := growFile_ok h sizes.sum hpos
          rw [hg] at hg'; cases hg'
          obtain ⟨r, hf2⟩ := findSpace_of_mem hex
          obtain ⟨hr, hle⟩ := findSpace_some hf2
          obtain ⟨hfb, hsp⟩ := carve hi h0 hs hr hle
          obtain ⟨hw, hl⟩ := carve_eq hi hr hle (by omega)
          have hN : newBlocks d sizes = (taken d1 r sizes.sum, .ok (layout r.1 sizes)) := by
            unfold newBlocks
            simp only [hlt, if_false, hf, hlen, if_true, hg, hf2, ge_iff_le, hfb, taken]
          refine ⟨⟨taken d1 r sizes.sum, d.diskBytes + sizes.sum⟩,
            layout r.1 sizes, ?_, ⟨⟨hsp.inv, hsp.len, ?_, ?_, ?_, ?_⟩, ?_, ?_, hN⟩⟩
          · unfold newBlocks64
            simp only [hreq, hlt, if_false, hf, hlen, if_true, hhd, hg64, hf2, ge_iff_le, hfb, hw, hl, taken]
          · have := hsp.mono; simp only [taken] at this ⊢; omega
          · have := hsp.bytes; simp only [taken] at this ⊢; omega
          · exact h3
          · exact h4
          · simp only [taken]; omega
          · intro _; simp only [taken]; omega
      · have hgt : sizes.length > 1 := by
          have : sizes.length ≠ 0 := by simpa using h0
          omega
        have hsplit : sizes.take (sizes.length / 2) ++ sizes.drop (sizes.length / 2) = sizes :=
          List.take_append_drop _ _
        have hsum : (sizes.take (sizes.length / 2)).sum + (sizes.drop (sizes.length / 2)).sum
            = sizes.sum := by
          rw [← List.sum_append, hsplit]
        have hlt1 : (sizes.take (sizes.length / 2)).length = sizes.length / 2 := by
          simp only [List.length_take]; omega
        have hne1 : sizes.take (sizes.length / 2) ≠ [] := by
          intro hc; have := congrArg List.length hc
          simp only [List.length_take, List.length_nil] at this; omega
        have hne2 : sizes.drop (sizes.length / 2) ≠ [] := by
          intro hc; have := congrArg List.length hc
          simp only [List.length_drop, List.length_nil] at this; omega
        have hs1 : ∀ z ∈ sizes.take (sizes.length / 2), 0 < z :=
          fun z hz => hs z (List.mem_of_mem_take hz)
        have hs2 : ∀ z ∈ sizes.drop (sizes.length / 2), 0 < z :=
          fun z hz => hs z (List.mem_of_mem_drop hz)
        rcases ih _ (by rw [hlt1]; omega) ⟨d, f⟩ L h _ hne1 hs1 (by simp only; omega) rfl with
          ⟨s3, os1, he3, ho3⟩ | ⟨s3, e, he3, hf3⟩
        · have hm3 := ho3.spec.mono
          have hb3 := ho3.spec.bytes
          have hl3 := ho3.le
          simp only at hm3 hb3 hl3
          rcases ih _ (by simp only [List.length_drop]; omega) s3 _ ho3.spec.inv _ hne2 hs2
              (by omega) rfl with
            ⟨s4, os2, he4, ho4⟩ | ⟨s4, e, he4, hf4⟩
          · left
            have hm4 := ho4.spec.mono
            have hb4 := ho4.spec.bytes
            have hl4 := ho4.le
            have hN : newBlocks d sizes = (s4.disk, .ok (os1 ++ os2)) := by
              have e3 := ho3.eq
              have e4 := ho4.eq
              simp only at e3
              unfold newBlocks
              simp only [hlt, if_false, hf, hlen, hgt, dite_true, e3, e4]
            obtain ⟨dd, oo, hdd, hspec⟩ := newBlocks_ok d L h sizes h0 hs (Or.inr (by omega))
            rw [hN] at hdd
            cases hdd
            refine ⟨s4, os1 ++ os2, ?_, ⟨hspec, ?_, ?_, hN⟩⟩
            · unfold newBlocks64
              simp only [hreq, hlt, if_false, hf, hlen, hgt, dite_true, he3, he4]
            · simp only; omega
            · intro hfl
              exact ho4.file (ho3.file hfl)
          · right
            have hm4 := hf4.mono
            have hl4 := hf4.le
            obtain ⟨k, hk, lost, hlost, hinv, hbytes⟩ := hf4.lost
            refine ⟨s4, e, ?_, ⟨?_, ?_, ?_, ?_, ?_, ?_, ?_⟩⟩
            · unfold newBlocks64
              simp only [hreq, hlt, if_false, hf, hlen, hgt, dite_true, he3, he4]
            · refine ⟨sizes.length / 2 + k, ?_,
                List.zipWith Block.mk os1 (sizes.take (sizes.length / 2)) ++ lost, ?_, ?_, ?_⟩
              · simp only [List.length_drop] at hk; omega
              · rw [List.map_append, hlost]
                have e1 : (List.zipWith Block.mk os1 (sizes.take (sizes.length / 2))).map Block.size
                    = sizes.take (sizes.length / 2) := by
                  rw [List.map_zipWith]
                  have : ∀ (a b : List Nat), a.length = b.length →
                      List.zipWith (fun x y => (Block.mk x y).size) a b = b := by
                    intro a
                    induction a with
                    | nil => intro b hb; cases b with
                      | nil => rfl
                      | cons => simp at hb
                    | cons x a iha => intro b hb; cases b with
                      | nil => simp at hb
                      | cons y b => simp only [List.zipWith_cons_cons]; rw [iha b (by simpa using hb)]
                  exact this _ _ ho3.spec.len
                rw [e1]
                exact List.take_add.symm
              · refine ⟨hinv.good, ?_, hinv.bytes, ?_⟩
                · intro x
                  have := hinv.part x
                  simp only [List.map_append, cov_append] at this ⊢
                  omega
                · intro b hb
                  apply hinv.pos
                  simp only [List.mem_append] at hb ⊢
                  rcases hb with (hb | hb) | hb
                  · exact Or.inr (Or.inl hb)
                  · exact Or.inl hb
                  · exact Or.inr (Or.inr hb)
              · have e2 := liveBytes_zip ho3.spec.len
                rw [liveBytes_append]
                simp only
                omega
            · simp only; omega
            · simp only; omega
            · rw [hf4.cfg, ho3.spec.cfg]
            · rw [hf4.auto, ho3.spec.auto]
            · intro hfl; exact hf4.file (ho3.file hfl)
            · rcases hf4.err with he | ⟨_, _, _, he⟩
              · exact Or.inl he
              · exfalso; omega
        · right
          have hm3 := hf3.mono
          have hl3 := hf3.le
          simp only at hm3 hl3
          obtain ⟨k, hk, lost, hlost, hinv, hbytes⟩ := hf3.lost
          refine ⟨s3, e, ?_, ⟨⟨k, ?_, lost, ?_, hinv, hbytes⟩, hm3, ?_, hf3.cfg, hf3.auto,
            hf3.file, ?_⟩⟩
          · unfold newBlocks64
            simp only [hreq, hlt, if_false, hf, hlen, hgt, dite_true, he3]
          · omega
          · rw [hlost, List.take_take]
            congr 1
            omega
          · simp only; omega
          · rcases hf3.err with he | ⟨_, _, _, he⟩
            · exact Or.inl he
            · exfalso; simp only at he; omega

end Foxxll.Alloc64
