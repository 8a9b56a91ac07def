import Verif.Spec.Alloc64
import Verif.Proofs.Alloc3

set_option linter.unusedSimpArgs false

namespace Foxxll.Alloc64
open Foxxll.Alloc

theorem w_lt {n : Nat} (h : n < W) : w n = n := Nat.mod_eq_of_lt h

theorem upper_mem {m : SpaceMap} {pos r} (h : m.upperBound pos = some r) : r ∈ m ∧ pos < r.1 := by
  unfold SpaceMap.upperBound at h
  exact ⟨List.mem_of_find?_eq_some h, by simpa using List.find?_some h⟩

theorem pred_mem {m : SpaceMap} {pos r} (h : m.predOf pos = some r) : r ∈ m := by
  unfold SpaceMap.predOf at h
  split at h
  · next p hp =>
    cases h
    exact (List.mem_filter.1 (List.mem_of_getLast? hp)).1
  · exact (upper_mem h).1

theorem addFree_eq (d : Disk) (pos size : Nat) (hr : ∀ r ∈ d.free, r.1 + r.2 < W)
    (hp : pos + size < W) (hf : d.freeBytes + size < W) :
    addFree d pos size = addFreeRegion d pos size := by
  unfold addFree addFreeRegion
  simp only [w_lt hf]
  by_cases he : d.free.isEmpty = true
  · simp [he]
  · simp only [he, if_false, Bool.false_eq_true]
    cases hs : d.free.upperBound pos with
    | none =>
      cases hq : d.free.predOf pos with
      | none => rfl
      | some p =>
        have h1 := hr p (pred_mem hq)
        simp only [w_lt h1]
        by_cases h2 : p.1 + p.2 = pos
        · have h3 : size + p.2 < W := by omega
          simp only [w_lt h3]
        · simp only [h2, if_false]
    | some s =>
      have h4 := hr s (upper_mem hs).1
      simp only [w_lt hp]
      cases hq : d.free.predOf pos with
      | none =>
        by_cases h5 : s.1 = pos + size
        · have h6 : size + s.2 < W := by omega
          simp only [w_lt h6]
        · simp only [h5, if_false]
      | some p =>
        have h1 := hr p (pred_mem hq)
        simp only [w_lt h1]
        by_cases h5 : s.1 = pos + size
        · have h6 : size + s.2 < W := by omega
          by_cases h2 : p.1 + p.2 = pos
          · have h7 : size + s.2 + p.2 < W := by omega
            simp only [w_lt h6, h5, if_true, w_lt h7]
          · simp only [w_lt h6, h5, if_true, h2, if_false]
        · by_cases h2 : p.1 + p.2 = pos
          · have h7 : size + p.2 < W := by omega
            simp only [h5, if_false, w_lt h7]
          · simp only [h5, if_false, h2]

/-! ### bounds from the invariant -/

theorem region_le {s : Sys} (h : Inv s) : ∀ r ∈ s.disk.free, r.1 + r.2 ≤ s.disk.diskBytes := by
  intro r hr
  have h0 := h.good.2 r hr
  have h1 := h.part (r.1 + r.2 - 1)
  have h2 : 0 < cov s.disk.free (r.1 + r.2 - 1) := cov_pos.2 ⟨r, hr, by omega, by omega⟩
  split at h1 <;> omega

theorem total_le {T : Nat} : ∀ (m : SpaceMap) (a : Nat), Good m → (∀ r ∈ m, r.1 + r.2 ≤ T) →
    (∀ r ∈ m, a ≤ r.1) → a ≤ T → total m + a ≤ T
  | [], a, _, _, _, h => by simpa using h
  | r :: m, a, hg, hT, ha, h => by
    have h1 := hT r (by simp)
    have h2 := ha r (by simp)
    have hp := hg.1
    simp only [List.pairwise_cons] at hp
    have := total_le (T := T) m (r.1 + r.2) ⟨hp.2, fun x hx => hg.2 x (by simp [hx])⟩
      (fun x hx => hT x (by simp [hx])) (fun x hx => Nat.le_of_lt (hp.1 x hx)) h1
    simp only [total_cons]
    omega

theorem free_le {s : Sys} (h : Inv s) : s.disk.freeBytes ≤ s.disk.diskBytes := by
  have := total_le s.disk.free 0 h.good (region_le h) (fun _ _ => Nat.zero_le _) (Nat.zero_le _)
  rw [h.bytes]; omega

theorem addFree_inv {d : Disk} {live : List Block} (h : Inv ⟨d, live⟩) (pos size : Nat)
    (h1 : d.diskBytes + size < W) (h2 : pos ≤ d.diskBytes) :
    addFree d pos size = addFreeRegion d pos size := by
  have h3 := free_le h
  simp only at h3
  exact addFree_eq d pos size (fun r hr => by have := region_le h r hr; simp only at this; omega)
    (by omega) (by omega)

theorem grow_eq {d : Disk} {live : List Block} (h : Inv ⟨d, live⟩) {e : Nat} (he : 0 < e)
    (hfit : d.diskBytes + e < W) {can : Nat → Bool} (hc : can (d.diskBytes + e) = true) {f : Nat} :
    ∃ d', growFile d e = .ok d' ∧ grow can ⟨d, f⟩ e = (⟨d', d.diskBytes + e⟩, .ok ()) ∧
      d'.diskBytes = d.diskBytes + e := by
  obtain ⟨d', hg, hi, h1, h2, -⟩ := growFile_ok h e he
  refine ⟨d', hg, ?_, h1⟩
  have he0 : ¬ e = 0 := by omega
  have ha := addFree_inv h d.diskBytes e hfit (Nat.le_refl _)
  unfold growFile at hg
  simp only [he0, if_false] at hg
  unfold grow
  simp only [he0, if_false, w_lt hfit, hc, if_true, ha]
  cases hadd : addFreeRegion d d.diskBytes e with
  | error e' => rw [hadd] at hg; cases hg
  | ok d1 =>
    rw [hadd] at hg
    simp only [Except.ok.injEq] at hg
    subst hg
    simp only at h1
    simp only [h1]

theorem grow_io {d : Disk} {e : Nat} (he : 0 < e)
    (hfit : d.diskBytes + e < W) {can : Nat → Bool} (hc : can (d.diskBytes + e) = false) {f : Nat} :
    grow can ⟨d, f⟩ e = (⟨d, f⟩, .error .io) := by
  have he0 : ¬ e = 0 := by omega
  unfold grow
  simp [he0, w_lt hfit, hc]

/-! ### sums -/

theorem foldl_sum (sizes : List Nat) : ∀ a, a + sizes.sum < W →
    sizes.foldl (fun a z => w (a + z)) a = a + sizes.sum := by
  induction sizes with
  | nil => intro a _; simp
  | cons z zs ih =>
    intro a h
    simp only [List.sum_cons] at h
    simp only [List.foldl_cons, List.sum_cons]
    rw [w_lt (by omega), ih _ (by omega)]
    omega

theorem reqSize_eq {sizes : List Nat} (h : sizes.sum < W) : reqSize sizes = sizes.sum := by
  unfold reqSize
  rw [foldl_sum sizes 0 (by omega)]
  omega

theorem layout64_eq (sizes : List Nat) : ∀ pos, pos + sizes.sum < W →
    layout64 pos sizes = layout pos sizes := by
  induction sizes with
  | nil => intro pos _; rfl
  | cons z zs ih =>
    intro pos h
    simp only [List.sum_cons] at h
    simp only [layout64, layout]
    rw [w_lt (by omega), ih _ (by omega)]

/-- how the errors of the model with natural numbers look here -/
def lift {α} : Except Err α → Except Err64 α
  | .ok a => .ok a
  | .error e => .error (.alloc e)

theorem head_eq_sum {sizes : List Nat} (h : sizes.length = 1) : sizes.headD 0 = sizes.sum := by
  match sizes, h with
  | [z], _ => simp

/-- the disk grows by the requested bytes at most -/
theorem newBlocks_grow_le (d : Disk) (live : List Block) (h : Inv ⟨d, live⟩) (sizes : List Nat)
    (h0 : sizes ≠ []) (hs : ∀ z ∈ sizes, 0 < z) :
    (newBlocks d sizes).1.diskBytes ≤ d.diskBytes + sizes.sum := by
  induction hn : sizes.length using Nat.strongRecOn generalizing d live sizes with
  | ind n ih =>
  have hpos := sum_pos_of h0 hs
  by_cases hlt : d.freeBytes < sizes.sum
  · by_cases hag : d.autogrow = true
    · obtain ⟨d1, hg, hi, h1, h2, h3, h4, hex⟩ := growFile_ok h sizes.sum hpos
      obtain ⟨r, hf⟩ := findSpace_of_mem hex
      unfold newBlocks
      simp only [hlt, hag, if_true, hg, hf]
      split <;> simp only <;> omega
    · rw [newBlocks_refuse d sizes (by simpa using hag) hlt]
      simp
  · cases hf : findSpace d.free sizes.sum with
    | some r =>
      unfold newBlocks
      simp only [hlt, if_false, hf]
      split <;> simp
    | none =>
      by_cases hlen : sizes.length = 1
      · obtain ⟨d2, hg2, hi2, hd2, hfb2, hc2, ha2, hex⟩ := growFile_ok h sizes.sum hpos
        obtain ⟨r, hf2⟩ := findSpace_of_mem hex
        unfold newBlocks
        simp only [hlt, if_false, hf, hlen, if_true, hg2, hf2]
        split <;> simp only <;> omega
      · have hgt : sizes.length > 1 := by
          have : sizes.length ≠ 0 := by simpa using h0
          omega
        have hsplit : sizes.take (sizes.length / 2) ++ sizes.drop (sizes.length / 2) = sizes :=
          List.take_append_drop _ _
        have hsum : (sizes.take (sizes.length / 2)).sum + (sizes.drop (sizes.length / 2)).sum
            = sizes.sum := by
          rw [← List.sum_append, hsplit]
        have hne1 : sizes.take (sizes.length / 2) ≠ [] := by
          intro hc; have := congrArg List.length hc
          simp only [List.length_take, List.length_nil] at this; omega
        have hne2 : sizes.drop (sizes.length / 2) ≠ [] := by
          intro hc; have := congrArg List.length hc
          simp only [List.length_drop, List.length_nil] at this; omega
        obtain ⟨d3, os1, he3, hs3⟩ := newBlocks_ok d live h _ hne1
          (fun z hz => hs z (List.mem_of_mem_take hz)) (Or.inr (by omega))
        obtain ⟨d4, os2, he4, hs4⟩ := newBlocks_ok d3 _ hs3.inv _ hne2
          (fun z hz => hs z (List.mem_of_mem_drop hz))
          (Or.inr (by have := hs3.bytes; have := hs3.mono; omega))
        have i1 := ih _ (by simp; omega) d live h _ hne1
          (fun z hz => hs z (List.mem_of_mem_take hz)) rfl
        have i2 := ih _ (by simp; omega) d3 _ hs3.inv _ hne2
          (fun z hz => hs z (List.mem_of_mem_drop hz)) rfl
        rw [he3] at i1
        rw [he4] at i2
        unfold newBlocks
        simp only [hlt, if_false, hf, hlen, hgt, dite_true, he3, he4]
        simp only at i1 i2
        omega

end Foxxll.Alloc64
