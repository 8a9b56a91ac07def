/-
Auxiliary lemmas for the theorems of `Verif.Props.Streams`.
-/
import Verif.Proofs.Streams
import Verif.Props.AsyncSchedule
import Verif.Spec.Streams
set_option linter.unusedSimpArgs false

namespace Foxxll.Stream

variable {α : Type}

theorem chunk_flatten {size : Nat} : ∀ (l : List (List α)) {xs : List α}, (∀ b ∈ l, b.length = size) → l.flatten = xs →
    xs.length = l.length * size ∧ ∀ i b, l[i]? = some b → b = chunk size xs i := by
  intro l
  induction l with
  | nil => intro xs _ h; subst h; simp
  | cons a l ih =>
    intro xs hl h
    simp only [List.flatten_cons] at h
    obtain ⟨h1, h2⟩ := ih (fun b hb => hl b (by simp [hb])) rfl
    have ha := hl a (by simp)
    subst h
    refine ⟨?_, ?_⟩
    · rw [List.length_append, h1, ha, List.length_cons, Nat.succ_mul]; omega
    · intro i b hb
      cases i with
      | zero =>
        simp only [List.getElem?_cons_zero, Option.some.injEq] at hb
        simp [chunk, hb, ← ha]
      | succ i =>
        simp only [List.getElem?_cons_succ] at hb
        rw [h2 i b hb, chunk, chunk, List.drop_append_of_le_length_add ha i]
where
  List.drop_append_of_le_length_add {a l : List α} {size : Nat} (ha : a.length = size) (i : Nat) :
      (a ++ l).drop ((i + 1) * size) = l.drop (i * size) := by
    rw [Nat.succ_mul, Nat.add_comm, ← List.drop_drop]
    simp [← ha]

theorem flatMap_chunks (size : Nat) (xs : List α) (k : Nat) :
    (List.range k).flatMap (chunk size xs) = xs.take (k * size) := by
  induction k with
  | zero => simp
  | succ k ih =>
    rw [List.range_succ, List.flatMap_append, ih, Nat.succ_mul, List.take_add]
    simp [chunk]

theorem range_rev_flatMap (f : Nat → List α) (k : Nat) :
    (List.range k).flatMap (fun j => (f (k - 1 - j)).reverse) = ((List.range k).flatMap f).reverse := by
  have h : ∀ n, n ≤ k → (List.range n).flatMap (fun j => (f (k - 1 - j)).reverse) =
      ((List.range' (k - n) n).flatMap f).reverse := by
    intro n
    induction n with
    | zero => intro _; simp
    | succ n ih =>
      intro hn
      rw [List.range_succ, List.flatMap_append, ih (by omega), List.range'_succ]
      rw [show k - (n + 1) + 1 = k - n by omega, show k - (n + 1) = k - 1 - n by omega]
      simp
  have := h k (Nat.le_refl k)
  rw [Nat.sub_self, ← List.range_eq_range'] at this
  exact this

theorem flatMap_congr' {l : List Nat} {f g : Nat → List α} (h : ∀ j ∈ l, f j = g j) : l.flatMap f = l.flatMap g := by
  rw [List.flatMap_def, List.flatMap_def, List.map_congr_left h]

theorem upTo_prefix (rev : Bool) (c : Prefetch.Cfg (List α)) {k : Nat} (hk : k ≤ c.seqLength) :
    upTo rev c k <+: expected rev c := by
  obtain ⟨t, ht⟩ : ∃ t, c.seqLength = k + t := ⟨c.seqLength - k, by omega⟩
  have : expected rev c = upTo rev c (k + t) := by rw [← ht]; rfl
  rw [this]
  clear ht this
  induction t with
  | zero => exact List.prefix_refl _
  | succ t ih =>
    rw [← Nat.add_assoc, upTo_succ]
    exact ih.trans (List.prefix_append _ _)

end Foxxll.Stream
