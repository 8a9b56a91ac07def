import Verif.Proofs.Config

namespace Foxxll.Config

theorem mem_takeWhile_true {p : Char → Bool} {l : Str} {ch : Char} (h : ch ∈ l.takeWhile p) : p ch = true := by
  induction l with
  | nil => simp at h
  | cons a l ih =>
    by_cases ha : p a = true
    · rw [List.takeWhile_cons, if_pos ha] at h
      rcases List.mem_cons.1 h with rfl | h
      · exact ha
      · exact ih h
    · rw [List.takeWhile_cons, if_neg ha] at h; cases h

theorem all_of_dropWhile_nil {p : Char → Bool} {l : Str} (h : l.dropWhile p = []) : ∀ ch ∈ l, p ch = true := by
  have hu := List.takeWhile_append_dropWhile (p := p) (l := l)
  rw [h, List.append_nil] at hu
  intro ch hc
  rw [← hu] at hc
  exact mem_takeWhile_true hc

theorem strtoul_form (s : Str) : ∃ sp sg u : Str, s = sp ++ sg ++ u ∧ (∀ ch ∈ sp, isSpace ch = true) ∧
    (sg = [] ∨ sg = ['-'] ∨ sg = ['+']) ∧
    (strtoul s).2 = if u.takeWhile isDigit = [] then s else u.dropWhile isDigit := by
  have hsp := List.takeWhile_append_dropWhile (p := isSpace) (l := s)
  have all_sp : ∀ ch ∈ s.takeWhile isSpace, isSpace ch = true := fun ch hch => mem_takeWhile_true hch
  by_cases hs : (s.dropWhile isSpace).head? = some '-' ∨ (s.dropWhile isSpace).head? = some '+'
  · have e : (strtoul s).2 = if ((s.dropWhile isSpace).drop 1).takeWhile isDigit = [] then s else ((s.dropWhile isSpace).drop 1).dropWhile isDigit := by
      unfold strtoul
      simp only
      rw [if_pos hs]
      by_cases hd : ((s.dropWhile isSpace).drop 1).takeWhile isDigit = []
      · rw [if_pos hd, if_pos hd]
      · rw [if_neg hd, if_neg hd]
    rw [e]
    generalize s.dropWhile isSpace = t at *
    cases t with
    | nil => simp at hs
    | cons a t =>
      refine ⟨s.takeWhile isSpace, [a], t, ?_, all_sp, ?_, rfl⟩
      · conv => lhs; rw [← hsp]
        simp
      · simp at hs; rcases hs with rfl | rfl <;> simp
  · have e : (strtoul s).2 = if (s.dropWhile isSpace).takeWhile isDigit = [] then s else (s.dropWhile isSpace).dropWhile isDigit := by
      unfold strtoul
      simp only
      rw [if_neg hs]
      by_cases hd : (s.dropWhile isSpace).takeWhile isDigit = []
      · rw [if_pos hd, if_pos hd]
      · rw [if_neg hd, if_neg hd]
    rw [e]
    exact ⟨s.takeWhile isSpace, [], s.dropWhile isSpace, by rw [List.append_nil, hsp], all_sp, .inl rfl, rfl⟩

theorem strtoul_big (n : Nat) (hn : 2 ^ 64 ≤ n) : strtoul (showNat n) = (2 ^ 64 - 1, []) := by
  have hd := showNat_digits n
  have hne := showNat_ne n
  cases hs : showNat n with
  | nil => exact absurd hs hne
  | cons a l =>
    rw [hs] at hd
    have ha := digit_facts (hd a (by simp))
    obtain ⟨h1, h2⟩ := takeWhile_all isDigit (a :: l) hd
    have hv := digits_showNat n
    rw [hs] at hv
    have hns : (a :: l).dropWhile isSpace = a :: l := by simp [ha.2.1]
    unfold strtoul
    simp only [hns, List.head?_cons, Option.some.injEq, ha.2.2.1, ha.2.2.2.1, or_false, if_false, h1, h2, hv]
    rw [if_neg (by simp), if_pos hn]

end Foxxll.Config
