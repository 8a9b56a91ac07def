import Verif.Proofs.Alloc64New

set_option linter.unusedSimpArgs false

namespace Foxxll.Alloc64
open Foxxll.Alloc

theorem create_spec {can : Nat → Bool} {file cfg : Nat} {ag : Bool} {d : Disk64} (hc : cfg < W)
    (h : create can file cfg ag = (d, .ok ())) :
    Inv ⟨d.disk, []⟩ ∧ d.disk.diskBytes = cfg ∧ d.disk.freeBytes = cfg ∧ cfg ≤ d.file ∧
      d.disk.cfgBytes = cfg ∧ d.disk.autogrow = ag := by
  have h0 : Inv ⟨⟨[], 0, 0, cfg, ag⟩, []⟩ := ⟨Good.nil, by simp, by simp, by simp⟩
  unfold create at h
  by_cases hz : cfg = 0
  · subst hz
    simp only [grow, if_true, Prod.mk.injEq, and_true] at h
    subst h
    exact ⟨h0, rfl, rfl, Nat.zero_le _, rfl, rfl⟩
  · cases hcan : can cfg with
    | false =>
      rw [grow_io (by omega) (by simpa using hc) (by simpa using hcan)] at h
      simp at h
    | true =>
      obtain ⟨d1, hg, hg64, h1⟩ := grow_eq h0 (e := cfg) (by omega) (by simpa using hc)
        (can := can) (by simpa using hcan) (f := file)
      obtain ⟨d1', hg', hi, -, h2, h3, h4, hex⟩ := growFile_ok h0 cfg (by omega)
      rw [hg] at hg'; cases hg'
      rw [hg64] at h
      simp only [Prod.mk.injEq, and_true] at h
      subst h
      exact ⟨hi, by simpa using h1, by simpa using h2, by simp, h3, h4⟩

theorem inv_perm {d : Disk} {a b : List Block} (h : Inv ⟨d, a⟩) (hp : a.Perm b) : Inv ⟨d, b⟩ :=
  ⟨h.good, fun x => by rw [← cov_perm (hp.map Block.reg) x]; exact h.part x, h.bytes,
    fun c hc => h.pos c (hp.symm.subset hc)⟩

theorem delete_spec {s : Disk64} {L : List Block} (h : Inv ⟨s.disk, L⟩) (hW : s.disk.diskBytes < W)
    {b : Block} (hb : b ∈ L) :
    ∃ d', delete64 s b.off b.size = (⟨d', s.file⟩, .ok ()) ∧
      deleteBlock s.disk b.off b.size = .ok d' ∧ Inv ⟨d', L.erase b⟩ ∧
      d'.diskBytes = s.disk.diskBytes ∧ d'.freeBytes = s.disk.freeBytes + b.size ∧
      d'.cfgBytes = s.disk.cfgBytes ∧ d'.autogrow = s.disk.autogrow := by
  obtain ⟨d', he, hi, h1, h2, h3, h4⟩ := delete_ok h hb
  have hin := h.inside hb
  have hfl := free_le hi
  simp only at hin hfl he h1 h2 h3 h4
  refine ⟨d', ?_, he, hi, h1, h2, h3, h4⟩
  have heq := addFree_eq s.disk b.off b.size
    (fun r hr => by have := region_le h r hr; simp only at this; omega) (by omega) (by omega)
  unfold delete64
  unfold deleteBlock at he
  rw [heq, he]

/-- everything known about fitting histories; `lost` are the leaked blocks -/
structure FInv (cfg : Nat) (ag : Bool) (s : Sys64) (lost : List Block) : Prop where
  inv : Inv ⟨s.d.disk, lost ++ s.live⟩
  small : s.d.disk.diskBytes < W
  file : s.d.disk.diskBytes ≤ s.d.file
  acct : s.d.disk.freeBytes + liveBytes (lost ++ s.live) = s.d.disk.diskBytes
  cfgB : s.d.disk.cfgBytes = cfg
  auto : s.d.disk.autogrow = ag

theorem step_ok {s : Sys64} {can : Nat → Bool} {sizes offs : List Nat} {d : Disk64}
    (h : newBlocks64 can s.d sizes = (d, .ok offs)) :
    s.step can (.alloc sizes) = ⟨d, List.zipWith Block.mk offs sizes ++ s.live⟩ := by
  simp [Sys64.step, h]

theorem step_err {s : Sys64} {can : Nat → Bool} {sizes : List Nat} {d : Disk64} {e : Err64}
    (h : newBlocks64 can s.d sizes = (d, .error e)) :
    s.step can (.alloc sizes) = ⟨d, s.live⟩ := by
  simp [Sys64.step, h]

theorem finv_alloc {cfg ag} {s : Sys64} {lost} (h : FInv cfg ag s lost) (can : Nat → Bool)
    {sizes : List Nat} (h0 : sizes ≠ []) (hs : ∀ z ∈ sizes, 0 < z)
    (hfit : s.d.disk.diskBytes + sizes.sum < W) :
    (∃ d offs, newBlocks64 can s.d sizes = (d, .ok offs) ∧
      OkSpec s.d d (lost ++ s.live) sizes offs ∧
      FInv cfg ag (s.step can (.alloc sizes)) lost) ∨
    (∃ d e, newBlocks64 can s.d sizes = (d, .error e) ∧
      FailSpec s.d d (lost ++ s.live) sizes e ∧
      ∃ lost', (∃ k < sizes.length, lost'.map Block.size = sizes.take k) ∧
        FInv cfg ag (s.step can (.alloc sizes)) (lost' ++ lost)) := by
  have hacct := h.acct
  rcases new_spec can s.d _ h.inv sizes h0 hs hfit with ⟨d, offs, he, ho⟩ | ⟨d, e, he, hf⟩
  · refine Or.inl ⟨d, offs, he, ho, ?_⟩
    rw [step_ok he]
    have hl := ho.le
    have hb := ho.spec.bytes
    have hz := liveBytes_zip ho.spec.len
    refine ⟨?_, ?_, ho.file h.file, ?_, by rw [← h.cfgB]; exact ho.spec.cfg,
      by rw [← h.auto]; exact ho.spec.auto⟩
    · apply inv_perm ho.spec.inv
      rw [← List.append_assoc, ← List.append_assoc]
      exact List.Perm.append_right _ List.perm_append_comm
    · simp only; omega
    · simp only [liveBytes_append] at hacct ⊢; omega
  · obtain ⟨k, hk, lost', hls, hinv, hb⟩ := hf.lost
    refine Or.inr ⟨d, e, he, hf, lost', ⟨k, hk, hls⟩, ?_⟩
    rw [step_err he]
    have hl := hf.le
    refine ⟨?_, ?_, hf.file h.file, ?_, by rw [← h.cfgB]; exact hf.cfg,
      by rw [← h.auto]; exact hf.auto⟩
    · simpa [List.append_assoc] using hinv
    · simp only; omega
    · simp only [liveBytes_append] at hacct ⊢; omega

theorem finv_free {cfg ag} {s : Sys64} {lost} (h : FInv cfg ag s lost) (can : Nat → Bool)
    {b : Block} (hb : b ∈ s.live) :
    (∃ d, delete64 s.d b.off b.size = (d, .ok ())) ∧
    (s.step can (.free b)).live = s.live.erase b ∧
    FInv cfg ag (s.step can (.free b)) lost := by
  have hm : b ∈ s.live ++ lost := List.mem_append.2 (Or.inl hb)
  have hi : Inv ⟨s.d.disk, s.live ++ lost⟩ := inv_perm h.inv List.perm_append_comm
  obtain ⟨d', he, -, hi', h1, h2, h3, h4⟩ := delete_spec hi h.small hm
  have hst : s.step can (.free b) = ⟨⟨d', s.d.file⟩, s.live.erase b⟩ := by
    simp [Sys64.step, he]
  rw [hst]
  have hacct := h.acct
  have hf := h.file
  have hsm := h.small
  have hle := liveBytes_erase hb
  refine ⟨⟨_, he⟩, rfl, ?_, ?_, ?_, ?_, by rw [← h.cfgB]; exact h3, by rw [← h.auto]; exact h4⟩
  · rw [List.erase_append_left _ hb] at hi'
    exact inv_perm hi' List.perm_append_comm
  · simp only; omega
  · simp only; omega
  · simp only [liveBytes_append] at hacct ⊢; omega

theorem reach_finv {file cfg ag s} (hc : cfg < 2 ^ 64) (h : ReachFit file cfg ag s) :
    ∃ lost, FInv cfg ag s lost := by
  induction h with
  | init hd =>
    obtain ⟨h1, h2, h3, h4, h5, h6⟩ := create_spec hc hd
    exact ⟨[], by simpa using h1, by rw [h2]; exact hc, by rw [h2]; exact h4,
      by simp [liveBytes]; omega, h5, h6⟩
  | @alloc s can sizes _ hv hfit ih =>
    obtain ⟨lost, hi⟩ := ih
    rcases finv_alloc hi can hv.1 (fun z hz => (hv.2 z hz).1) hfit with
      ⟨_, _, _, _, h⟩ | ⟨_, _, _, _, lost', _, h⟩
    · exact ⟨_, h⟩
    · exact ⟨_, h⟩
  | free _ hb ih =>
    obtain ⟨lost, hi⟩ := ih
    exact ⟨lost, (finv_free hi _ hb).2.2⟩

theorem noLeak_of_finv {cfg ag} {s : Sys64} (h : FInv cfg ag s []) : NoLeak s := by
  intro x hx
  have hp := h.inv.part x
  simp only [List.nil_append] at hp
  rw [if_pos hx] at hp
  by_cases h0 : 0 < cov s.d.disk.free x
  · exact Or.inl (freeByte_iff.2 h0)
  · right
    obtain ⟨r, hr, hx1⟩ := cov_pos.1 (show 0 < cov (s.live.map Block.reg) x by omega)
    obtain ⟨b, hb, rfl⟩ := List.mem_map.1 hr
    exact ⟨b, hb, hx1⟩

/-! ### one block size -/

theorem sum_dvd {B : Nat} {sizes : List Nat} (hs : ∀ z ∈ sizes, z = B) : B ∣ sizes.sum := by
  induction sizes with
  | nil => simp
  | cons z zs ih =>
    rw [List.sum_cons, hs z (by simp)]
    exact Nat.dvd_add (Nat.dvd_refl _) (ih fun y hy => hs y (by simp [hy]))

/-- with room, blocks of one size never need a larger file -/
theorem uni_room {B : Nat} (hB : 0 < B) (can : Nat → Bool) (s : Disk64) (L : List Block)
    (h : Inv ⟨s.disk, L⟩) (hu : Uni B ⟨s.disk, L⟩) (sizes : List Nat) (h0 : sizes ≠ [])
    (hs : ∀ z ∈ sizes, z = B) (hroom : sizes.sum ≤ s.disk.freeBytes)
    (hfit : s.disk.diskBytes + sizes.sum < W) :
    ∃ s' offs, newBlocks64 can s sizes = (s', .ok offs) := by
  induction hn : sizes.length using Nat.strongRecOn generalizing s L sizes with
  | ind n ih =>
  have hsp : ∀ z ∈ sizes, 0 < z := fun z hz => by rw [hs z hz]; exact hB
  have hpos := sum_pos_of h0 hsp
  have hreq := reqSize_eq (sizes := sizes) (by omega)
  have hnlt : ¬ s.disk.freeBytes < sizes.sum := by omega
  unfold newBlocks64
  simp only [hreq, hnlt, if_false]
  cases hf : findSpace s.disk.free sizes.sum with
  | some r => simp only [ge_iff_le, hroom, if_true]; exact ⟨_, _, rfl⟩
  | none =>
    by_cases hlen : sizes.length = 1
    · exfalso
      have hb := h.bytes
      obtain ⟨r, hr⟩ := exists_region_of_total (m := s.disk.free) (by simp only at hb; omega)
      have hsum : sizes.sum = B := by
        match sizes, hlen with
        | [z], _ => simp [hs z (by simp)]
      obtain ⟨h1, h2⟩ := hu.free hB h r hr
      have h3 : B ∣ r.2 := (Nat.dvd_add_right h1).1 h2
      have h4 := Nat.le_of_dvd (h.good.2 r hr) h3
      obtain ⟨r', hr'⟩ := findSpace_of_mem (m := s.disk.free) (req := sizes.sum) ⟨r, hr, by omega⟩
      rw [hf] at hr'; cases hr'
    · have hgt : sizes.length > 1 := by
        have : sizes.length ≠ 0 := by simpa using h0
        omega
      simp only [hlen, if_false, hgt, dite_true]
      have hsplit : sizes.take (sizes.length / 2) ++ sizes.drop (sizes.length / 2) = sizes :=
        List.take_append_drop _ _
      have hsum : (sizes.take (sizes.length / 2)).sum + (sizes.drop (sizes.length / 2)).sum
          = sizes.sum := by
        rw [← List.sum_append, hsplit]
      have hne1 : sizes.take (sizes.length / 2) ≠ [] := by
        intro hc; have := congrArg List.length hc
        simp only [List.length_take, List.length_nil] at this; omega
      have hne2 : sizes.drop (sizes.length / 2) ≠ [] := by
        intro hc; have := congrArg List.length hc
        simp only [List.length_drop, List.length_nil] at this; omega
      obtain ⟨s3, os1, he3⟩ := ih _ (by simp; omega) s L h hu _ hne1
        (fun z hz => hs z (List.mem_of_mem_take hz)) (by omega) (by omega) rfl
      have ho3 : OkSpec s s3 L (sizes.take (sizes.length / 2)) os1 := by
        rcases new_spec can s L h _ hne1 (fun z hz => hsp z (List.mem_of_mem_take hz)) (by omega)
          with ⟨s', o, he, ho⟩ | ⟨s', e, he, _⟩
        · rw [he3] at he; cases he; exact ho
        · rw [he3] at he; cases he
      obtain ⟨e1, a1⟩ := newBlocks_uni hB s.disk L h hu _ hne1
        (fun z hz => hs z (List.mem_of_mem_take hz)) (by omega) ho3.eq
      have hu3 : Uni B ⟨s3.disk, List.zipWith Block.mk os1 (sizes.take (sizes.length / 2)) ++ L⟩ := by
        constructor
        · simp only; rw [e1]; exact hu.disk
        · intro b hb
          rcases List.mem_append.1 hb with hb | hb
          · exact a1 b hb
          · exact hu.live b hb
      have hb3 := ho3.spec.bytes
      obtain ⟨s4, os2, he4⟩ := ih _ (by simp; omega) s3 _ ho3.spec.inv hu3 _ hne2
        (fun z hz => hs z (List.mem_of_mem_drop hz)) (by omega) (by omega) rfl
      simp only [he3, he4]
      exact ⟨_, _, rfl⟩

/-- a request for blocks of one size either succeeds, with aligned blocks, or changes
nothing -/
theorem uni_alloc {B : Nat} (hB : 0 < B) (can : Nat → Bool) (s : Disk64) (L : List Block)
    (h : Inv ⟨s.disk, L⟩) (hu : Uni B ⟨s.disk, L⟩) (sizes : List Nat) (h0 : sizes ≠ [])
    (hs : ∀ z ∈ sizes, z = B) (hfit : s.disk.diskBytes + sizes.sum < W) :
    (∃ s' offs, newBlocks64 can s sizes = (s', .ok offs) ∧
      Uni B ⟨s'.disk, List.zipWith Block.mk offs sizes ++ L⟩) ∨
    ∃ e, newBlocks64 can s sizes = (s, .error e) := by
  have hsp : ∀ z ∈ sizes, 0 < z := fun z hz => by rw [hs z hz]; exact hB
  have hpos := sum_pos_of h0 hsp
  have hreq := reqSize_eq (sizes := sizes) (by omega)
  by_cases hlt : s.disk.freeBytes < sizes.sum
  · by_cases hag : s.disk.autogrow = true
    · cases hc : can (s.disk.diskBytes + sizes.sum) with
      | false =>
        right
        refine ⟨.io, ?_⟩
        unfold newBlocks64
        simp only [hreq, hlt, hag, if_true, grow_io (f := s.file) hpos hfit hc]
      | true =>
        left
        obtain ⟨d1, hg, hg64, h1⟩ := grow_eq h hpos hfit hc (f := s.file)
        obtain ⟨d1', hg', hi, -, h2, h3, h4, hex⟩ := growFile_ok h sizes.sum hpos
        rw [hg] at hg'; cases hg'
        obtain ⟨r, hf⟩ := findSpace_of_mem hex
        obtain ⟨hr, hle⟩ := findSpace_some hf
        obtain ⟨hfb, hsp'⟩ := carve hi h0 hsp hr hle
        obtain ⟨hw, hl⟩ := carve_eq hi hr hle (by omega)
        have hu1 : Uni B ⟨d1, L⟩ := by
          refine ⟨?_, hu.live⟩
          simp only [h1]
          exact Nat.dvd_add hu.disk (sum_dvd hs)
        refine ⟨⟨taken d1 r sizes.sum, s.disk.diskBytes + sizes.sum⟩, layout r.1 sizes, ?_, ?_, ?_⟩
        · unfold newBlocks64
          simp only [hreq, hlt, hag, if_true, hg64, hf, ge_iff_le, hfb, hw, hl, taken]
        · simp only [taken]; exact hu1.disk
        · intro b hb
          rcases List.mem_append.1 hb with hb | hb
          · exact layout_aligned (hu1.free hB hi r hr).1 hs b hb
          · exact hu.live b hb
    · right
      refine ⟨.alloc .badExtAlloc, ?_⟩
      unfold newBlocks64
      simp [hreq, hlt, hag]
  · left
    obtain ⟨s', offs, he⟩ := uni_room hB can s L h hu sizes h0 hs (by omega) hfit
    refine ⟨s', offs, he, ?_⟩
    rcases new_spec can s L h sizes h0 hsp hfit with ⟨s2, o, he2, ho⟩ | ⟨s2, e, he2, _⟩
    · rw [he] at he2; cases he2
      obtain ⟨e1, a1⟩ := newBlocks_uni hB s.disk L h hu sizes h0 hs (by omega) ho.eq
      refine ⟨by simp only; rw [e1]; exact hu.disk, ?_⟩
      intro b hb
      rcases List.mem_append.1 hb with hb | hb
      · exact a1 b hb
      · exact hu.live b hb
    · rw [he] at he2; cases he2

theorem reach_uni {B file cfg ag s} (hB : 0 < B) (hd : B ∣ cfg) (hc : cfg < 2 ^ 64)
    (h : ReachFitUni B file cfg ag s) :
    FInv cfg ag s [] ∧ Uni B ⟨s.d.disk, s.live⟩ := by
  induction h with
  | init hcr =>
    obtain ⟨h1, h2, h3, h4, h5, h6⟩ := create_spec hc hcr
    refine ⟨⟨by simpa using h1, by rw [h2]; exact hc, by rw [h2]; exact h4,
      by simp [liveBytes]; omega, h5, h6⟩, ⟨?_, ?_⟩⟩
    · simp only; rw [h2]; exact hd
    · intro b hb; cases hb
  | @alloc s can sizes _ h0 hs hfit ih =>
    obtain ⟨hi, hu⟩ := ih
    have hi0 : Inv ⟨s.d.disk, s.live⟩ := by simpa using hi.inv
    rcases uni_alloc hB can s.d s.live hi0 hu sizes h0 hs hfit with ⟨s', offs, he, hu'⟩ | ⟨e, he⟩
    · rcases finv_alloc hi can h0 (fun z hz => by rw [hs z hz]; exact hB) hfit with
        ⟨_, _, he2, _, h⟩ | ⟨_, _, he2, _, _⟩
      · refine ⟨h, ?_⟩
        rw [step_ok he]
        exact hu'
      · rw [he] at he2; cases he2
    · rw [step_err he]
      exact ⟨hi, hu⟩
  | free _ hb ih =>
    obtain ⟨hi, hu⟩ := ih
    rename_i s can b _
    obtain ⟨-, hl, h⟩ := finv_free hi can hb
    refine ⟨h, ?_⟩
    have hi0 : Inv ⟨s.d.disk, s.live⟩ := by simpa using hi.inv
    obtain ⟨d', he, -, -, h1, -⟩ := delete_spec hi0 hi.small hb
    have hst : s.step can (.free b) = ⟨⟨d', s.d.file⟩, s.live.erase b⟩ := by
      simp [Sys64.step, he]
    rw [hst]
    refine ⟨by simp only; rw [h1]; exact hu.disk, ?_⟩
    intro c hc
    exact hu.live c (List.mem_of_mem_erase hc)

end Foxxll.Alloc64

namespace Foxxll.Alloc64
open Foxxll.Alloc

theorem lost_nil {cfg ag} {s : Sys64} {lost : List Block} (h : FInv cfg ag s lost)
    (hn : NoLeak s) : lost = [] := by
  cases lost with
  | nil => rfl
  | cons b l =>
    exfalso
    have hpos := h.inv.pos b (by simp)
    have hp := h.inv.part b.off
    have hin := h.inv.inside (b := b) (by simp)
    simp only at hin
    rw [if_pos (by simp only; omega)] at hp
    simp only [List.map_append, List.map_cons, cov_append, cov_cons, Block.reg] at hp
    rw [if_pos ⟨Nat.le_refl _, by omega⟩] at hp
    rcases hn b.off (by omega) with hf | ⟨c, hc, hx⟩
    · have := freeByte_iff.1 hf; omega
    · have : 0 < cov (s.live.map Block.reg) b.off :=
        cov_pos.2 ⟨c.reg, List.mem_map.2 ⟨c, hc, rfl⟩, hx⟩
      omega

theorem grow_not_io {can : Nat → Bool} (hc : ∀ n, can n = true) (s : Disk64) (e : Nat) :
    (grow can s e).2 ≠ .error .io := by
  unfold grow
  by_cases h0 : e = 0
  · simp [h0]
  · simp only [h0, if_false, hc, if_true]
    split <;> simp

theorem new_not_io {can : Nat → Bool} (hc : ∀ n, can n = true) (s : Disk64) (sizes : List Nat) :
    (newBlocks64 can s sizes).2 ≠ .error .io := by
  induction hn : sizes.length using Nat.strongRecOn generalizing s sizes with
  | ind n ih =>
  rw [newBlocks64]
  have hg1 := grow_not_io hc s (reqSize sizes)
  split
  · next s1 e heq =>
    split at heq
    · split at heq
      · rw [heq] at hg1; simpa using hg1
      · cases heq; simp
    · cases heq
  · next s1 heq =>
    have hg2 := grow_not_io hc s1 (sizes.headD 0)
    cases hf : findSpace s1.disk.free (reqSize sizes) with
    | some r => simp only; split <;> simp
    | none =>
      by_cases hlen : sizes.length = 1
      · simp only [hlen, if_true]
        cases hgr : grow can s1 (sizes.headD 0) with
        | mk s2 r =>
          rw [hgr] at hg2
          cases r with
          | error e => simpa using hg2
          | ok u =>
            cases hf2 : findSpace s2.disk.free (reqSize sizes) with
            | some r => simp only [hf2]; split <;> simp
            | none => simp [hf2]
      · simp only [hlen, if_false]
        split
        · next hgt =>
          have i1 := ih (sizes.take (sizes.length / 2)).length (by simp; omega) s1 _ rfl
          split
          · next h3 => rw [h3] at i1; simpa using i1
          · next s3 os1 h3 =>
            have i2 := ih (sizes.drop (sizes.length / 2)).length (by simp; omega) s3 _ rfl
            split
            · next h4 => rw [h4] at i2; simpa using i2
            · simp
        · simp

end Foxxll.Alloc64
