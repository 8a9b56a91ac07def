import Verif.Proofs.Files
import Verif.Spec.Files
/-
Invariant of the in-memory file.
-/
set_option linter.unusedSimpArgs false
set_option linter.unusedVariables false
namespace Foxxll.Files

/-- The memory is as large as the size says and holds what is known. -/
structure MemInv (m : Mem) (k : Known) : Prop where
  size : m.size = k.size
  len : (m.ptr.getD []).length = k.size
  known : ∀ i b, k.at_ i = some b → (m.ptr.getD [])[i]? = some b

theorem write_inv {m : Mem} {k : Known} (h : MemInv m k) {off : Nat} {d : List UInt8} (hr : off + d.length ≤ k.size) :
    ∃ m', m.write off d = .ok m' ∧ m'.size = m.size ∧ (m'.ptr.getD []).length = k.size ∧
      ∀ i, (m'.ptr.getD [])[i]? = if off ≤ i ∧ i < off + d.length then d[i - off]? else (m.ptr.getD [])[i]? := by
  have hl := h.len
  cases hp : m.ptr with
  | none =>
    rw [hp] at hl
    simp at hl
    have : d = [] := by cases d with
      | nil => rfl
      | cons a b => simp at hr; omega
    subst this
    refine ⟨m, by simp [Mem.write, hp], rfl, by simp [hp, hl], ?_⟩
    intro i
    rw [hp, if_neg (by simp)]
  | some l =>
    rw [hp] at hl
    simp only [Option.getD_some] at hl
    refine ⟨{ m with ptr := some (store l off d) }, ?_, rfl, ?_, ?_⟩
    · simp only [Mem.write, hp]; rw [if_pos (by omega)]
    · simp only [Option.getD_some]; rw [length_store _ _ _ (by omega), hl]
    · intro i
      simp only [Option.getD_some]
      exact store_get l off d (by omega) i

theorem mem_step {m : Mem} {k : Known} (h : MemInv m k) {op : MOp} (hr : InRange k.size op) (hg : Granted op) :
    ∃ m' b, m.step op = .ok (m', b) ∧ MemInv m' (k.step op) := by
  cases op with
  | write off d =>
    obtain ⟨m', h1, h2, h3, h4⟩ := write_inv h hr
    refine ⟨m', [], by simp [Mem.step, h1], h2.trans h.size, h3, ?_⟩
    intro i b hb
    rw [h4]
    simp only [Known.step] at hb
    split at hb
    · rename_i hc; rw [if_pos hc]; exact hb
    · rename_i hc; rw [if_neg hc]; exact h.known i b hb
  | read off n =>
    have hl := h.len
    cases hp : m.ptr with
    | none =>
      rw [hp] at hl
      simp at hl
      have : n = 0 := by simp only [InRange] at hr; omega
      exact ⟨m, [], by simp [Mem.step, Mem.read, hp, this], h⟩
    | some l =>
      rw [hp] at hl
      simp only [Option.getD_some] at hl
      refine ⟨m, (l.drop off).take n, ?_, h⟩
      simp only [Mem.step, Mem.read, hp]
      rw [if_pos (by simp only [InRange] at hr; omega)]
  | setSize n r =>
    cases r with
    | none => exact absurd rfl hg
    | some g =>
      refine ⟨_, [], rfl, rfl, ?_, ?_⟩
      · simp [Mem.setSize, Known.step]; omega
      · intro i b hb
        simp only [Known.step] at hb
        split at hb
        · rename_i hc
          have h1 := h.known i b hb
          have hl := h.len
          simp only [Mem.setSize, Option.getD_some]
          rw [List.getElem?_append_left (by simp; omega), List.getElem?_take_of_lt hc.1]
          exact h1
        · cases hb
  | discard off n g =>
    by_cases h0 : n = 0
    · subst h0
      refine ⟨m, [], by simp [Mem.step, Mem.discard], h.size, h.len, ?_⟩
      intro i b hb
      simp only [Known.step] at hb
      rw [if_neg (by omega)] at hb
      exact h.known i b hb
    cases g with
    | none => exact absurd rfl hg
    | some g =>
      obtain ⟨m', h1, h2, h3, h4⟩ := write_inv h (off := off) (d := (List.range n).map (fun i => g (i % 4096))) (by simpa [InRange] using hr)
      refine ⟨m', [], by simp [Mem.step, Mem.discard, h0, h1], h2.trans h.size, h3, ?_⟩
      intro i b hb
      simp only [Known.step] at hb
      split at hb
      · cases hb
      · rename_i hc; rw [h4, if_neg (by simpa using hc)]; exact h.known i b hb

theorem mem_reach {m : Mem} {k : Known} (h : MReach m k) : MemInv m k := by
  induction h with
  | start => exact ⟨rfl, rfl, by simp⟩
  | next op _ hr hg hs ih =>
    obtain ⟨m1, b1, h1, h2⟩ := mem_step ih hr hg
    rw [h1] at hs
    injection hs with hs
    cases hs
    exact h2

end Foxxll.Files
