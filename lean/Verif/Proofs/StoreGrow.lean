import Verif.Model.Store
import Verif.Proofs.Manager2
/-
Disks do not shrink; blocks of the client on one disk are apart from each other.
-/
namespace Foxxll.Store
open Foxxll

theorem addFreeRegion_bytes {d d' : Alloc.Disk} {p z : Nat} (h : Alloc.addFreeRegion d p z = .ok d') : d'.diskBytes = d.diskBytes := by
  unfold Alloc.addFreeRegion at h
  simp only at h
  repeat' split at h
  all_goals first
    | (injection h with h; subst h; rfl)
    | cases h

theorem growFile_bytes {d d' : Alloc.Disk} {e : Nat} (h : Alloc.growFile d e = .ok d') : d.diskBytes ≤ d'.diskBytes := by
  unfold Alloc.growFile at h
  split at h
  · injection h with h; subst h; exact Nat.le_refl _
  · split at h
    · cases h
    · rename_i d1 h1
      injection h with h; subst h
      have := addFreeRegion_bytes h1
      simp only; omega

theorem newBlocks_bytes (n : Nat) : ∀ (d : Alloc.Disk) (sizes : List Nat), sizes.length ≤ n → d.diskBytes ≤ (Alloc.newBlocks d sizes).1.diskBytes := by
  induction n using Nat.strongRecOn with
  | ind n ih =>
  intro d sizes hn
  rw [Alloc.newBlocks]
  simp only
  split
  · exact Nat.le_refl _
  · rename_i d1 hg
    have h1 : d.diskBytes ≤ d1.diskBytes := by
      split at hg
      · split at hg
        · exact growFile_bytes hg
        · cases hg
      · injection hg with hg; subst hg; exact Nat.le_refl _
    split
    · exact h1
    · rename_i d2 r hf
      have h2 : d1.diskBytes ≤ d2.diskBytes := by
        split at hf
        · injection hf with hf; injection hf with hf _; subst hf; exact Nat.le_refl _
        · split at hf
          · split at hf
            · cases hf
            · rename_i d3 hg3
              injection hf with hf; injection hf with hf _; subst hf
              exact growFile_bytes hg3
          · injection hf with hf; injection hf with hf h3; cases h3
      split
      · exact Nat.le_trans h1 h2
      · exact Nat.le_trans h1 h2
    · rename_i d2 hf
      have h2 : d1.diskBytes ≤ d2.diskBytes := by
        split at hf
        · injection hf with hf; injection hf with _ h3; cases h3
        · split at hf
          · split at hf
            · cases hf
            · rename_i d3 hg3
              injection hf with hf; injection hf with hf _; subst hf
              exact growFile_bytes hg3
          · injection hf with hf; injection hf with hf _; subst hf; exact Nat.le_refl _
      split
      · rename_i hl
        have h3 := ih (sizes.length / 2) (by omega) d2 (sizes.take (sizes.length / 2)) (by rw [List.length_take]; omega)
        split
        · rename_i d3 e he
          rw [he] at h3; simp only at h3 ⊢; omega
        · rename_i d3 os1 he
          rw [he] at h3
          have h4 := ih (sizes.length - sizes.length / 2) (by omega) d3 (sizes.drop (sizes.length / 2)) (by rw [List.length_drop]; omega)
          split
          · rename_i d4 e he4
            rw [he4] at h4; simp only at h3 h4 ⊢; omega
          · rename_i d4 os2 he4
            rw [he4] at h4; simp only at h3 h4 ⊢; omega
      · exact Nat.le_trans h1 h2

/-- `disk_bytes_` in a list of disks. -/
def bytesAt (ds : List Alloc.Disk) (d : Nat) : Nat :=
  match ds[d]? with
  | some dk => dk.diskBytes
  | none => 0

theorem bytesAt_set {ds : List Alloc.Disk} {i : Nat} {dk dk' : Alloc.Disk} (h : ds[i]? = some dk) (hle : dk.diskBytes ≤ dk'.diskBytes) (d : Nat) :
    bytesAt ds d ≤ bytesAt (ds.set i dk') d := by
  unfold bytesAt
  rw [List.getElem?_set]
  by_cases e : i = d
  · subst e
    have hl : i < ds.length := by
      rcases Nat.lt_or_ge i ds.length with h' | h'
      · exact h'
      · rw [List.getElem?_eq_none h'] at h; cases h
    rw [if_pos rfl, if_pos hl, h]
    exact hle
  · rw [if_neg e]; exact Nat.le_refl _

theorem allocLoop_bytes (asg : List Nat) : ∀ (ds : List Nat) (m : Mgr.Manager) (out : List Mgr.Bid) (d : Nat),
    bytesAt m.disks d ≤ bytesAt (Mgr.allocLoop asg ds m out).1.disks d := by
  intro ds
  induction ds with
  | nil => intro m out d; exact Nat.le_refl _
  | cons i ds ih =>
    intro m out d
    simp only [Mgr.allocLoop]
    split
    · exact ih m out d
    · split
      · exact Nat.le_refl _
      · rename_i dk hdk
        have hb := newBlocks_bytes _ dk (Mgr.gather i asg (out.map Mgr.Bid.size)) (Nat.le_refl _)
        split
        · rename_i dk' e he
          rw [he] at hb
          exact bytesAt_set hdk hb d
        · rename_i dk' offs he
          rw [he] at hb
          refine Nat.le_trans (bytesAt_set hdk hb d) ?_
          exact ih { m with disks := m.disks.set i dk', total := m.total + _, cur := m.cur + _ } _ d

theorem newBlocks_bytesAt (m : Mgr.Manager) (f : Nat → Nat) (o : Nat) (out : List Mgr.Bid) (d : Nat) :
    bytesAt m.disks d ≤ bytesAt (m.newBlocks f o out).1.disks d := by
  unfold Mgr.Manager.newBlocks
  split
  · exact Nat.le_refl _
  · rename_i asg _
    have := allocLoop_bytes asg (List.range m.disks.length) m out d
    split
    · rename_i m' out' e he
      rw [he] at this; exact this
    · rename_i m' out' he
      rw [he] at this; exact this

theorem bytesOf_step (m : Mgr.MSys) (op : Mgr.MOp) (d : Nat) : bytesOf m d ≤ bytesOf (m.step op) d := by
  show bytesAt m.mgr.disks d ≤ bytesAt (m.step op).mgr.disks d
  cases op with
  | new f o out =>
    have := newBlocks_bytesAt m.mgr f o out d
    simp only [Mgr.MSys.step]
    split
    · rename_i m' out' he
      rw [he] at this; exact this
    · rename_i m' out' e he
      rw [he] at this; exact this
  | delete b =>
    simp only [Mgr.MSys.step]
    split
    · rename_i m' he
      unfold Mgr.Manager.deleteBlock at he
      split at he
      · injection he with he; subst he; exact Nat.le_refl _
      · injection he with he; subst he; exact Nat.le_refl _
      · split at he
        · cases he
        · rename_i dk hdk
          split at he
          · cases he
          · rename_i dk' hd
            injection he with he; subst he
            exact bytesAt_set hdk (Nat.le_of_eq (addFreeRegion_bytes hd).symm) d
    · exact Nat.le_refl _

/-! ### Blocks of the client -/

theorem pairwise_sep {α : Type} {R : α → α → Prop} (hR : ∀ a b, R a b → R b a) {l : List α} (h : l.Pairwise R) {a b : α}
    (ha : a ∈ l) (hb : b ∈ l) (hab : a ≠ b) : R a b := by
  induction l with
  | nil => cases ha
  | cons x l ih =>
    rw [List.pairwise_cons] at h
    rcases List.mem_cons.1 ha with h1 | h1 <;> rcases List.mem_cons.1 hb with h2 | h2
    · exact absurd (h1.trans h2.symm) hab
    · rw [h1]; exact h.1 b h2
    · rw [h2]; exact hR _ _ (h.1 a h1)
    · exact ih h.2 h1 h2

/-- Byte ranges without a common byte. -/
def Apart (o z o' z' : Nat) : Prop := o + z ≤ o' ∨ o' + z' ≤ o ∨ z = 0 ∨ z' = 0

theorem live_inside {cfgs : List (Nat × Bool)} {m : Mgr.MSys} (h : Mgr.MReach cfgs m) {b : Mgr.Bid} (hb : b ∈ m.live) :
    ∃ d, b.storage = .managed d ∧ 0 < b.size ∧ b.off + b.size ≤ bytesOf m d := by
  obtain ⟨lost, hi⟩ := Mgr.mreach_inv h
  obtain ⟨d, hd, hs⟩ := hi.man b hb
  have hlt : d < m.mgr.disks.length := by rw [hi.len]; exact hd
  have hget := List.getElem?_eq_getElem hlt
  refine ⟨d, hs, (hi.size b hb).1, ?_⟩
  unfold bytesOf
  rw [hget]
  exact (hi.disk d _ hget).inv.inside (b := b.block) (Mgr.mem_onDisk (List.mem_append.2 (Or.inl hb)) hs)

theorem live_apart {cfgs : List (Nat × Bool)} {m : Mgr.MSys} (h : Mgr.MReach cfgs m) {b c : Mgr.Bid} (hb : b ∈ m.live) (hc : c ∈ m.live)
    (hbc : b ≠ c) (hs : b.storage = c.storage) : Apart b.off b.size c.off c.size := by
  obtain ⟨lost, hi⟩ := Mgr.mreach_inv h
  obtain ⟨d, hd, hst⟩ := hi.man b hb
  have hlt : d < m.mgr.disks.length := by rw [hi.len]; exact hd
  have hp : (Mgr.onDisk d (m.live ++ lost)).Pairwise Alloc.Block.Disjoint :=
    Alloc.disjoint_of_cov (fun x => (hi.disk d _ (List.getElem?_eq_getElem hlt)).inv.cov_le x)
  unfold Mgr.onDisk at hp
  rw [List.pairwise_map] at hp
  have hsym : ∀ a b : Mgr.Bid, Alloc.Block.Disjoint a.block b.block → Alloc.Block.Disjoint b.block a.block := by
    intro a b h x hx
    exact h x ⟨hx.2, hx.1⟩
  have := pairwise_sep hsym hp (a := b) (b := c) (by simp [hb, hst]) (by simp [hc, ← hs, hst]) hbc
  unfold Alloc.Block.Disjoint Alloc.Block.has Mgr.Bid.block at this
  simp only at this
  unfold Apart
  have h1 := this b.off
  have h2 := this c.off
  omega

end Foxxll.Store
