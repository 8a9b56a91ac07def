import Verif.Proofs.Manager

set_option linter.unusedSimpArgs false

namespace Foxxll.Mgr
open Foxxll.Alloc

theorem onDisk_append (d a b) : onDisk d (a ++ b) = onDisk d a ++ onDisk d b := by
  simp [onDisk]

theorem onDisk_sel (d : Nat) (done asg : List Nat) (out : List Bid)
    (h : ∀ e ∈ done, ∀ b ∈ sel (fun a => a == e) asg out, b.storage = .managed e) :
    onDisk d (sel (fun a => decide (a ∈ done)) asg out)
      = (sel (fun a => a == d && decide (d ∈ done)) asg out).map Bid.block := by
  induction asg generalizing out with
  | nil => rfl
  | cons a as ih =>
    cases out with
    | nil => rfl
    | cons b bs =>
      have ih' := ih bs (fun e he c hc => h e he c (by
        simp only [sel]; split
        · exact List.mem_cons_of_mem _ hc
        · exact hc))
      simp only [sel]
      by_cases had : a ∈ done
      · have hb := h a had b (by simp [sel])
        simp only [had, decide_true, if_true]
        by_cases hd : a = d
        · subst hd
          simp only [onDisk] at ih'
          simp [onDisk, hb, had, ih']
        · simp only [onDisk] at ih'
          simp [onDisk, hb, hd, ih']
      · by_cases hd : a = d
        · subst hd
          simp [had, ih']
        · simp [had, hd, ih']

theorem sel_all (P : Nat → Bool) (asg : List Nat) (out : List Bid) (hl : asg.length = out.length)
    (h : ∀ a ∈ asg, P a = true) : sel P asg out = out := by
  induction asg generalizing out with
  | nil => cases out with
    | nil => rfl
    | cons => simp at hl
  | cons a as ih => cases out with
    | nil => simp at hl
    | cons b bs =>
      simp [sel, h a (by simp), ih bs (by simpa using hl) (fun a ha => h a (by simp [ha]))]

theorem sum_gather (a s : Nat) (g : Nat → Nat) (ds : List Nat) (hn : ds.Nodup) :
    (ds.map (fun d => if a = d then s + g d else g d)).sum
      = (if a ∈ ds then s else 0) + (ds.map g).sum := by
  induction ds with
  | nil => simp
  | cons d ds ih =>
    rw [List.nodup_cons] at hn
    have := ih hn.2
    simp only [List.map_cons, List.sum_cons, this, List.mem_cons]
    by_cases had : a = d
    · subst had; simp [hn.1]; omega
    · simp [had]; split <;> omega

theorem gathered_eq (asg sizes ds : List Nat) (hn : ds.Nodup) (hl : asg.length = sizes.length)
    (h : ∀ a ∈ asg, a ∈ ds) : gathered asg sizes ds = sizes.sum := by
  induction asg generalizing sizes with
  | nil => cases sizes with
    | nil =>
      simp only [gathered, gather, List.sum_nil]
      induction ds with
      | nil => rfl
      | cons d ds ih => simp at hn; simpa using ih hn.2 (by simp)
    | cons => simp at hl
  | cons a as ih => cases sizes with
    | nil => simp at hl
    | cons s ss =>
      have := ih ss (by simpa using hl) (fun a ha => h a (by simp [ha]))
      simp only [gathered] at this ⊢
      have e : ∀ d, (gather d (a :: as) (s :: ss)).sum
          = if a = d then s + (gather d as ss).sum else (gather d as ss).sum := by
        intro d; simp only [gather]; split <;> simp
      simp only [e]
      rw [sum_gather a s (fun d => (gather d as ss).sum) ds hn, this, if_pos (h a (by simp))]
      simp

/-- invariant of all reachable states -/
structure MInv (n : Nat) (s : MSys) (lost : List Bid) : Prop where
  len : s.mgr.disks.length = n
  disk : ∀ d dk, s.mgr.disks[d]? = some dk → DInv dk (onDisk d (s.live ++ lost))
  man : ∀ b ∈ s.live, ∃ d, d < n ∧ b.storage = .managed d
  size : ∀ b ∈ s.live, 0 < b.size ∧ (b.tmpl = 0 ∨ b.size = b.tmpl)

theorem mem_onDisk {d : Nat} {bs : List Bid} {b : Bid} (hb : b ∈ bs) (hs : b.storage = .managed d) :
    b.block ∈ onDisk d bs := by
  simp only [onDisk, List.mem_map, List.mem_filter]
  exact ⟨b, ⟨hb, by simp [hs]⟩, rfl⟩

theorem mem_zip_sel {asg : List Nat} {out : List Bid} {b : Bid} (hl : asg.length = out.length)
    (hb : b ∈ out) : ∃ a ∈ asg, b ∈ sel (fun x => x == a) asg out := by
  induction asg generalizing out with
  | nil => cases out with
    | nil => simp at hb
    | cons => simp at hl
  | cons a as ih => cases out with
    | nil => simp at hl
    | cons c cs =>
      rcases List.mem_cons.1 hb with rfl | hb
      · exact ⟨a, by simp, by simp [sel]⟩
      · obtain ⟨e, he, h⟩ := ih (by simpa using hl) hb
        refine ⟨e, by simp [he], ?_⟩
        simp only [sel]; split
        · exact List.mem_cons_of_mem _ h
        · exact h

/-- result of an allocation in a state satisfying the invariant -/
theorem newBlocks_spec {n : Nat} {s : MSys} {lost : List Bid} (h : MInv n s lost)
    (f : Nat → Nat) (o : Nat) (out : List Bid) (hv : (MOp.new f o out).Valid s) :
    ∃ asg m' out' r, assign s.mgr.disks f (fun _ => 0) o (out.map Bid.size) = .ok asg ∧
      asg.length = out.length ∧ (∀ a ∈ asg, a < n) ∧
      s.mgr.newBlocks f o out = (m', out', r) ∧ m'.disks.length = n ∧
      out'.map Bid.size = out.map Bid.size ∧ out'.map Bid.tmpl = out.map Bid.tmpl ∧
      ((r = .ok () ∧ (∀ d dk, m'.disks[d]? = some dk → DInv dk (onDisk d (out' ++ s.live ++ lost))) ∧
          (∀ a ∈ asg, ∀ b ∈ sel (fun x => x == a) asg out', b.storage = .managed a) ∧
          m'.total = s.mgr.total + bidBytes out ∧
          m'.cur = s.mgr.cur + bidBytes out ∧
          m'.max = Max.max s.mgr.max (s.mgr.cur + bidBytes out)) ∨
       (r = .error (.alloc .badExtAlloc) ∧
          (∃ lost', ∀ d dk, m'.disks[d]? = some dk → DInv dk (onDisk d (s.live ++ lost'))) ∧
          ∃ d dk, s.mgr.disks[d]? = some dk ∧ dk.autogrow = false ∧
            dk.freeBytes < (gather d asg (out.map Bid.size)).sum)) := by
  obtain ⟨hf, hsz⟩ := hv
  obtain ⟨asg, ha, hl, hlt, -⟩ := assign_ok s.mgr.disks f (fun _ => 0) o (out.map Bid.size)
    (by intro j h1 h2; exact hf j h1 (by simpa using h2))
  rw [List.length_map] at hl
  rw [h.len] at hlt
  have hL : LInv n asg (fun d => onDisk d (s.live ++ lost)) [] s.mgr out := by
    refine ⟨h.len, fun d dk hd => ?_, by simp⟩
    simpa [sel_false] using h.disk d dk hd
  obtain ⟨m', out', r, h1, h2, h3, h3', h4⟩ := allocLoop_spec (List.range n) [] s.mgr out hL
    (fun b hb => (hsz b hb).1) (by intro d hd; exact ⟨List.mem_range.1 hd, by simp⟩)
    List.nodup_range
  have hlen' : out'.length = out.length := by simpa using congrArg List.length h2
  rcases h4 with ⟨rfl, hL', ht, hc⟩ | ⟨rfl, ⟨done', hL'⟩, d, hd, dk, h5, h6, h7⟩
  · simp only [List.nil_append] at hL'
    refine ⟨asg, { m' with max := Max.max m'.max m'.cur }, out', .ok (), ha, hl, hlt, ?_, hL'.len, h2, h3,
      Or.inl ⟨rfl, ?_, ?_, ?_, ?_, ?_⟩⟩
    · simp only [Manager.newBlocks, ha, h.len, h1]
    · intro d dk hd
      have hdi := hL'.disk d dk hd
      have := onDisk_sel d (List.range n) asg out' hL'.stor
      rw [sel_all _ asg out' (by omega) (by simpa using hlt)] at this
      rw [← this] at hdi
      rw [List.append_assoc, onDisk_append]; exact hdi
    · intro a ha b hb
      exact hL'.stor a (List.mem_range.2 (hlt a ha)) b hb
    · rw [ht, gathered_eq _ _ _ List.nodup_range (by simpa using hl) (by simpa using hlt)]; rfl
    · rw [hc, gathered_eq _ _ _ List.nodup_range (by simpa using hl) (by simpa using hlt)]; rfl
    · rw [hc, h3', gathered_eq _ _ _ List.nodup_range (by simpa using hl) (by simpa using hlt)]; rfl
  · refine ⟨asg, m', out', .error (.alloc .badExtAlloc), ha, hl, hlt, ?_, hL'.len, h2, h3,
      Or.inr ⟨rfl, ⟨sel (fun a => decide (a ∈ done')) asg out' ++ lost, ?_⟩, d, dk, h5, h6, h7⟩⟩
    · simp only [Manager.newBlocks, ha, h.len, h1]
    · intro d dk hd
      have hdi := hL'.disk d dk hd
      rw [← onDisk_sel d done' asg out' hL'.stor] at hdi
      apply hdi.perm
      simp only [onDisk_append]
      rw [← List.append_assoc, ← List.append_assoc]
      exact List.Perm.append_right _ List.perm_append_comm

theorem deleteBlock_spec {n : Nat} {s : MSys} {lost : List Bid} (h : MInv n s lost)
    (b : Bid) (hb : b ∈ s.live) :
    ∃ m', s.mgr.deleteBlock b = .ok m' ∧ m'.disks.length = n ∧
      (∀ d dk, m'.disks[d]? = some dk → DInv dk (onDisk d (s.live.erase b ++ lost))) ∧
      m'.total = s.mgr.total ∧ m'.cur = s.mgr.cur - b.tmpl ∧ m'.max = s.mgr.max := by
  obtain ⟨d, hd, hst⟩ := h.man b hb
  have hlt : d < s.mgr.disks.length := by rw [h.len]; exact hd
  have hget : s.mgr.disks[d]? = some s.mgr.disks[d] := List.getElem?_eq_getElem hlt
  generalize s.mgr.disks[d] = dk at hget
  have hdi := h.disk d dk hget
  have hperm : (s.live ++ lost).Perm (b :: (s.live.erase b ++ lost)) :=
    (List.perm_cons_erase hb).append_right lost
  have hbm : b.block ∈ onDisk d (s.live ++ lost) := mem_onDisk (List.mem_append.2 (Or.inl hb)) hst
  have honp : ∀ e, (onDisk e (s.live ++ lost)).Perm (onDisk e (b :: (s.live.erase b ++ lost))) :=
    fun e => (hperm.filter _).map _
  obtain ⟨dk', he, hi, h1, h2, -⟩ := delete_ok hdi.inv (b := b.block) hbm
  have he' : Alloc.deleteBlock dk b.off b.size = .ok dk' := he
  refine ⟨{ s.mgr with disks := s.mgr.disks.set d dk', cur := s.mgr.cur - b.tmpl }, ?_,
    by simp [h.len], ?_, rfl, rfl, rfl⟩
  · simp [Manager.deleteBlock, hst, hget, he']
  · intro e ek hek
    simp only [List.getElem?_set] at hek
    have hon := honp e
    by_cases hed : d = e
    · subst hed
      simp only [if_true, hlt] at hek
      cases hek
      have hcons : onDisk d (b :: (s.live.erase b ++ lost)) = b.block :: onDisk d (s.live.erase b ++ lost) := by
        simp [onDisk, hst]
      rw [hcons] at hon
      have hacc := liveBytes_erase hbm
      have hA : DInv dk' ((onDisk d (s.live ++ lost)).erase b.block) := by
        refine ⟨hi, ?_⟩
        have h3 := hdi.acct
        rw [h1, h2]; simp only [] at h3 ⊢; omega
      apply hA.perm
      have := hon.erase b.block
      simpa using this
    · rw [if_neg hed] at hek
      have hcons : onDisk e (b :: (s.live.erase b ++ lost)) = onDisk e (s.live.erase b ++ lost) := by
        simp [onDisk, hst, hed]
      rw [hcons] at hon
      exact (h.disk e ek hek).perm hon

theorem MInv.step {n : Nat} {s : MSys} {lost : List Bid} (h : MInv n s lost) {op : MOp}
    (hv : op.Valid s) : ∃ lost', MInv n (s.step op) lost' := by
  cases op with
  | new f o out =>
    obtain ⟨asg, m', out', r, h1, h2, h3, h4, h5, h6, h7, h8⟩ := newBlocks_spec h f o out hv
    rcases h8 with ⟨rfl, h9, h10, -⟩ | ⟨rfl, ⟨lost', h9⟩, -⟩
    · simp only [MSys.step, h4]
      have hlen : asg.length = out'.length := by
        have := congrArg List.length h6; simp at this; omega
      refine ⟨lost, h5, h9, fun b hb => ?_, fun b hb => ?_⟩
      · rcases List.mem_append.1 hb with hb | hb
        · obtain ⟨a, ha, hs⟩ := mem_zip_sel hlen hb
          exact ⟨a, h3 a ha, h10 a ha b hs⟩
        · exact h.man b hb
      · rcases List.mem_append.1 hb with hb | hb
        · obtain ⟨k, hk, rfl⟩ := List.getElem_of_mem hb
          have hk' : k < out.length := by omega
          have e1 : out'[k].size = out[k].size := by
            have := congrArg (fun l => l[k]?) h6
            simpa [hk, hk'] using this
          have e2 : out'[k].tmpl = out[k].tmpl := by
            have := congrArg (fun l => l[k]?) h7
            simpa [hk, hk'] using this
          rw [e1, e2]
          exact hv.2 _ (List.getElem_mem hk')
        · exact h.size b hb
    · simp only [MSys.step, h4]
      exact ⟨lost', h5, h9, h.man, h.size⟩
  | delete b =>
    obtain ⟨m', h1, h2, h3, -⟩ := deleteBlock_spec h b hv
    simp only [MSys.step, h1]
    exact ⟨lost, h2, h3, fun c hc => h.man c (List.mem_of_mem_erase hc),
      fun c hc => h.size c (List.mem_of_mem_erase hc)⟩

theorem createDisks_ok (cfgs : List (Nat × Bool)) :
    ∃ ds, createDisks cfgs = .ok ds ∧ ds.length = cfgs.length ∧ ∀ dk ∈ ds, DInv dk [] := by
  induction cfgs with
  | nil => exact ⟨[], rfl, rfl, by simp⟩
  | cons c cs ih =>
    obtain ⟨ds, h1, h2, h3⟩ := ih
    obtain ⟨d, g1, g2, g3, g4, -⟩ := create_ok c.1 c.2
    refine ⟨d :: ds, ?_, by simp [h2], ?_⟩
    · obtain ⟨sz, ag⟩ := c
      simp only [createDisks, h1] at *
      simp [g1]
    · intro dk hdk
      rcases List.mem_cons.1 hdk with rfl | hdk
      · exact ⟨g2, by simp [liveBytes]; omega⟩
      · exact h3 dk hdk

theorem mreach_inv {cfgs s} (h : MReach cfgs s) : ∃ lost, MInv cfgs.length s lost := by
  induction h with
  | @init m hm =>
    obtain ⟨ds, h1, h2, h3⟩ := createDisks_ok cfgs
    simp only [Manager.create, h1] at hm
    cases hm
    refine ⟨[], h2, fun d dk hd => ?_, by simp, by simp⟩
    exact h3 dk (List.mem_of_getElem? hd)
  | step _ hv ih =>
    obtain ⟨lost, hi⟩ := ih
    exact hi.step hv

end Foxxll.Mgr
