import Verif.Spec.Store
import Verif.Props.Files
import Verif.Proofs.StoreGrow
/-
What the transfer of one request does to the files and the buffers.
-/
namespace Foxxll.Store
open Foxxll

theorem upd_same {α : Type} (f : Nat → α) (i : Nat) (a : α) : upd f i a i = a := by simp [upd]

theorem upd_other {α : Type} (f : Nat → α) {i j : Nat} (a : α) (h : j ≠ i) : upd f i a j = f j := by simp [upd, h]

theorem grown_byte {old new : Nat} {f : Files.File} {i : Nat} (h : i < old) : (grown old new f).byte i = f.byte i := by
  unfold grown
  split
  · simp only [Files.truncate]
    rw [if_pos (by omega)]
  · rfl

theorem grown_size {old new : Nat} {f : Files.File} (h : old ≤ f.size) (hn : old ≤ new) : new ≤ (grown old new f).size := by
  unfold grown
  split
  · exact Nat.le_refl _
  · omega

theorem grown_tail {old new : Nat} {f : Files.File} (h : ∀ i, f.size ≤ i → f.byte i = 0) :
    ∀ i, (grown old new f).size ≤ i → (grown old new f).byte i = 0 := by
  unfold grown
  split
  · intro i hi
    simp only [Files.truncate] at hi ⊢
    rw [if_neg (by omega)]
  · exact h

/-- Effect of a transfer. -/
structure Moved (s s' : St) (x : Nat) (q : Req) : Prop where
  m : s'.m = s.m
  qs : s'.qs = s.qs
  reqs : s'.reqs = s.reqs
  other : ∀ d, d ≠ q.disk → s'.files d = s.files d
  rd : q.write = false → s'.files = s.files
  wr : q.write = true → s'.mem = s.mem
  out : ∀ i, i < q.off ∨ q.off + q.size ≤ i → (s'.files q.disk).byte i = (s.files q.disk).byte i
  put : q.write = true → x ∉ s'.failed → ∀ i, i < q.size → (s'.files q.disk).byte (q.off + i) = (s.mem q.buf).getD i 0
  size : (s.files q.disk).size ≤ (s'.files q.disk).size
  tail : ∀ i, (s'.files q.disk).size ≤ i → (s'.files q.disk).byte i = 0
  bufs : ∀ b, b ≠ q.buf → s'.mem b = s.mem b
  len : (s'.mem q.buf).length = (s.mem q.buf).length
  get : q.write = false → x ∉ s'.failed → ∀ i, i < q.size → (s'.mem q.buf).getD i 0 = (s.files q.disk).byte (q.off + i)
  fail : ∀ y ∈ s.failed, y ∈ s'.failed
  only : ∀ y ∈ s'.failed, y = x ∨ y ∈ s.failed

theorem serve_moved {s : St} {x : Nat} {q : Req} (os : Nat → Files.Sys) (hq : s.reqs x = some q) (hl : (s.mem q.buf).length = q.size)
    (ht : ∀ i, (s.files q.disk).size ≤ i → (s.files q.disk).byte i = 0) : Moved s (s.serve x os) x q := by
  unfold St.serve
  rw [hq]
  simp only
  by_cases hw : q.write = true
  · rw [if_pos hw]
    have h := Files.C33_write os ht (s.mem q.buf) q.off q.size (by omega)
    split at h
    · rename_i f' b' he
      obtain ⟨h1, h2, h3, h4⟩ := h
      rw [he]
      simp only
      refine ⟨rfl, rfl, rfl, fun d hd => upd_other _ _ hd, fun h => (by rw [hw] at h; cases h), fun _ => rfl, ?_, ?_, ?_, ?_,
        fun _ _ => rfl, rfl, fun h => (by rw [hw] at h; cases h), fun _ h => h, fun _ h => .inr h⟩
      · intro i hi
        simp only [upd_same]; exact h4 i hi
      · intro _ _ i hi
        simp only [upd_same]
        rw [h3 i hi, List.getD_eq_getElem?_getD, List.getElem?_eq_getElem (by omega)]; rfl
      · simp only [upd_same]; rw [h2]; split <;> omega
      · intro i hi
        simp only [upd_same] at hi ⊢
        by_cases h0 : q.size = 0
        · rw [if_pos h0] at h2
          rw [h4 i (by omega)]; exact ht i (by omega)
        · rw [if_neg h0] at h2
          rw [h4 i (by omega)]; exact ht i (by omega)
    · rename_i f' b' he
      obtain ⟨h1, k, hk, h2, h3, h4⟩ := h
      rw [he]
      simp only
      refine ⟨rfl, rfl, rfl, fun d hd => upd_other _ _ hd, fun h => (by rw [hw] at h; cases h), fun _ => rfl, ?_,
        fun _ h => absurd List.mem_cons_self h, ?_, ?_,
        fun _ _ => rfl, rfl, fun h => (by rw [hw] at h; cases h), fun _ h => List.mem_cons_of_mem _ h, fun _ h => by simpa using h⟩
      · intro i hi
        simp only [upd_same]; exact h4 i (by omega)
      · simp only [upd_same]; rw [h2]; split <;> omega
      · intro i hi
        simp only [upd_same] at hi ⊢
        by_cases h0 : k = 0
        · rw [if_pos h0] at h2
          rw [h4 i (by omega)]; exact ht i (by omega)
        · rw [if_neg h0] at h2
          rw [h4 i (by omega)]; exact ht i (by omega)
    · exact h.elim
  · have hwf : q.write = false := by simpa using hw
    rw [if_neg hw]
    have h := Files.C33_read os ht (s.mem q.buf) q.off q.size (by omega)
    split at h
    · rename_i f' b' he
      obtain ⟨h1, h2, h3⟩ := h
      rw [he]
      simp only
      refine ⟨rfl, rfl, rfl, fun _ _ => rfl, fun _ => rfl, fun h => absurd h hw, fun _ _ => rfl, fun h => absurd h hw, Nat.le_refl _, ht,
        fun b hb => upd_other _ _ hb, by simp only [upd_same]; exact h2, ?_, fun _ h => h, fun _ h => .inr h⟩
      intro _ _ i hi
      simp only [upd_same]
      rw [List.getD_eq_getElem?_getD, h3 i (by omega), if_pos hi]
      simp only [Option.getD_some]
      split
      · rfl
      · rw [ht _ (by omega)]
    · rename_i f' b' he
      obtain ⟨h1, h2, h3⟩ := h
      rw [he]
      simp only
      exact ⟨rfl, rfl, rfl, fun _ _ => rfl, fun _ => rfl, fun h => absurd h hw, fun _ _ => rfl, fun h => absurd h hw, Nat.le_refl _, ht,
        fun b hb => upd_other _ _ hb, by simp only [upd_same]; exact h2, fun _ h => absurd List.mem_cons_self h,
        fun _ h => List.mem_cons_of_mem _ h, fun _ h => by simpa using h⟩
    · exact h.elim

end Foxxll.Store
