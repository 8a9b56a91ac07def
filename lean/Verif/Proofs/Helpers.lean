import Verif.Spec.Helpers
import Verif.Proofs.ConfigOptions
/-
Helper lemmas about `SWITCH` and the helpers of utils.hpp.
-/
set_option linter.unusedSimpArgs false
namespace Foxxll.Helpers
open Foxxll.Config (Str showNat showInt)

theorem dflt_val : dflt = -2 ^ 31 := by decide

theorem switch_some {T : Type} (tag : Int) (ty : T) : ∀ l : List (Int × T), switch tag (chain l) = some ty ↔
    ∃ pre t post, l = pre ++ (t, ty) :: post ∧ (t = tag ∨ t = dflt) ∧ ∀ p ∈ pre, p.1 ≠ tag ∧ p.1 ≠ dflt := by
  intro l
  induction l with
  | nil => simp [chain, switch]
  | cons q l ih =>
    obtain ⟨t, y⟩ := q
    unfold chain switch
    by_cases h : t = tag ∨ t = dflt
    · rw [if_pos h]
      constructor
      · intro e; cases e; exact ⟨[], t, l, rfl, h, by simp⟩
      · rintro ⟨pre, t', post, e, _, hp⟩
        cases pre with
        | nil => simp only [List.nil_append, List.cons.injEq, Prod.mk.injEq] at e; rw [e.1.2]
        | cons p pre =>
          simp only [List.cons_append, List.cons.injEq] at e
          have := hp p (by simp)
          rw [← e.1] at this
          rcases h with h | h
          · exact absurd h this.1
          · exact absurd h this.2
    · rw [if_neg h, ih]
      constructor
      · rintro ⟨pre, t', post, e, h1, hp⟩
        refine ⟨(t, y) :: pre, t', post, by rw [e]; rfl, h1, ?_⟩
        intro p hp'
        rcases List.mem_cons.mp hp' with rfl | hp'
        · exact ⟨fun e => h (.inl e), fun e => h (.inr e)⟩
        · exact hp p hp'
      · rintro ⟨pre, t', post, e, h1, hp⟩
        cases pre with
        | nil =>
          simp only [List.nil_append, List.cons.injEq, Prod.mk.injEq] at e
          rw [e.1.1] at h
          exact absurd h1 h
        | cons p pre =>
          simp only [List.cons_append, List.cons.injEq] at e
          exact ⟨pre, t', post, e.2, h1, fun p' hp' => hp p' (by simp [hp'])⟩

theorem switch_none {T : Type} (tag : Int) : ∀ l : List (Int × T), switch tag (chain l) = none ↔
    ∀ p ∈ l, p.1 ≠ tag ∧ p.1 ≠ dflt := by
  intro l
  induction l with
  | nil => simp [chain, switch]
  | cons q l ih =>
    obtain ⟨t, y⟩ := q
    unfold chain switch
    by_cases h : t = tag ∨ t = dflt
    · rw [if_pos h]
      simp only [List.mem_cons, forall_eq_or_imp, reduceCtorEq, false_iff]
      rintro ⟨h1, _⟩
      rcases h with h | h
      · exact h1.1 h
      · exact h1.2 h
    · rw [if_neg h, ih]
      simp only [List.mem_cons, forall_eq_or_imp]
      exact ⟨fun h2 => ⟨⟨fun e => h (.inl e), fun e => h (.inr e)⟩, h2⟩, fun h2 => h2.2⟩

theorem swapLoop_spec {D : Type} (n a b : Nat) : ∀ (k i : Nat) (m : Nat → D), a + (i + k) ≤ n → b + (i + k) ≤ n →
    (a + (i + k) ≤ b ∨ b + (i + k) ≤ a) →
    ∃ m', swapLoop n a b k i m = some m' ∧ (∀ j, i ≤ j → j < i + k → m' (a + j) = m (b + j) ∧ m' (b + j) = m (a + j)) ∧
      ∀ z, (∀ j, i ≤ j → j < i + k → z ≠ a + j ∧ z ≠ b + j) → m' z = m z := by
  intro k
  induction k with
  | zero => intro i m _ _ _; exact ⟨m, rfl, fun j h1 h2 => by omega, fun z _ => rfl⟩
  | succ k ih =>
    intro i m ha hb hd
    have e : swapAt n (a + i) (b + i) m = some (fun z => if z = b + i then m (a + i) else if z = a + i then m (b + i) else m z) := by
      unfold swapAt; rw [if_pos ⟨by omega, by omega⟩]
    obtain ⟨m', h1, h2, h3⟩ := ih (i + 1) (fun z => if z = b + i then m (a + i) else if z = a + i then m (b + i) else m z)
      (by omega) (by omega) (by omega)
    refine ⟨m', ?_, ?_, ?_⟩
    · unfold swapLoop; rw [e]; exact h1
    · intro j hj1 hj2
      by_cases hj : j = i
      · subst hj
        constructor
        · rw [h3 _ (fun j' _ _ => by omega), if_neg (by omega), if_pos rfl]
        · rw [h3 _ (fun j' _ _ => by omega), if_pos rfl]
      · obtain ⟨e1, e2⟩ := h2 j (by omega) (by omega)
        constructor
        · rw [e1, if_neg (by omega), if_neg (by omega)]
        · rw [e2, if_neg (by omega), if_neg (by omega)]
    · intro z hz
      have h0 := hz i (by omega) (by omega)
      rw [h3 z (fun j h1 h2 => hz j (by omega) (by omega)), if_neg h0.2, if_neg h0.1]

theorem swapLoop_none {D : Type} (n a b : Nat) : ∀ (k i : Nat) (m : Nat → D), 0 < k → n < a + (i + k) ∨ n < b + (i + k) →
    swapLoop n a b k i m = none := by
  intro k
  induction k with
  | zero => intro i m h; omega
  | succ k ih =>
    intro i m _ h
    unfold swapLoop
    by_cases hi : a + i < n ∧ b + i < n
    · unfold swapAt; rw [if_pos hi]
      exact ih (i + 1) _ (by omega) (by omega)
    · unfold swapAt; rw [if_neg hi]; rfl

theorem swapLoop_some {D : Type} (n a b : Nat) : ∀ (k i : Nat) (m : Nat → D), a + (i + k) ≤ n → b + (i + k) ≤ n →
    swapLoop n a b k i m ≠ none := by
  intro k
  induction k with
  | zero => intro i m _ _ h; cases h
  | succ k ih =>
    intro i m h1 h2
    unfold swapLoop swapAt
    rw [if_pos ⟨by omega, by omega⟩]
    exact ih (i + 1) _ (by omega) (by omega)

theorem swapLoop_same {D : Type} (n a : Nat) : ∀ (k i : Nat) (m : Nat → D), a + (i + k) ≤ n → swapLoop n a a k i m = some m := by
  intro k
  induction k with
  | zero => intro i m _; rfl
  | succ k ih =>
    intro i m h
    unfold swapLoop swapAt
    rw [if_pos ⟨by omega, by omega⟩]
    have : (fun z => if z = a + i then m (a + i) else if z = a + i then m (a + i) else m z) = m := by
      funext z
      by_cases hz : z = a + i
      · rw [if_pos hz, hz]
      · rw [if_neg hz, if_neg hz]
    rw [this]
    exact ih (i + 1) m (by omega)

theorem popMany_front {D : Type} : ∀ (k : Nat) (l : List D), k ≤ l.length → popMany popFront k l = some (l.take k, l.drop k) := by
  intro k
  induction k with
  | zero => intro l _; rfl
  | succ k ih =>
    intro l h
    cases l with
    | nil => simp at h
    | cons x l =>
      have := ih l (by simpa using h)
      have e : popFront (x :: l) = some (x, l) := rfl
      unfold popMany
      simp [e, this]

theorem popBack_concat {D : Type} (l : List D) (x : D) : popBack (l ++ [x]) = some (x, l) := by
  simp [popBack]

theorem popMany_back {D : Type} : ∀ (k : Nat) (l : List D), k ≤ l.length →
    popMany popBack k l = some (l.reverse.take k, l.take (l.length - k)) := by
  intro k
  induction k with
  | zero => intro l _; simp [popMany]
  | succ k ih =>
    intro l h
    have hne : l ≠ [] := by intro e; subst e; simp at h
    obtain ⟨l', x, rfl⟩ : ∃ l' x, l = l' ++ [x] := ⟨l.dropLast, l.getLast hne, (List.dropLast_concat_getLast hne).symm⟩
    unfold popMany
    rw [popBack_concat]
    have h' : k ≤ l'.length := by simpa using h
    have := ih l' h'
    simp only [Option.bind_some, this, Option.map_some, List.reverse_append, List.reverse_singleton, List.singleton_append,
      List.take_succ_cons, List.length_append, List.length_singleton]
    rw [show l'.length + 1 - (k + 1) = l'.length - k by omega, List.take_append_of_le_length (by omega)]

theorem popMany_none {D : Type} (f : List D → Option (D × List D)) (hf : ∀ l p, f l = some p → p.2.length + 1 = l.length) : ∀ (k : Nat) (l : List D), l.length < k → popMany f k l = none := by
  intro k
  induction k with
  | zero => intro l h; omega
  | succ k ih =>
    intro l h
    unfold popMany
    cases e : f l with
    | none => rfl
    | some p =>
      have := hf l p e
      simp [ih p.2 (by omega)]

theorem cstr_showInt (i : Int) : Config.cstr (showInt i) = showInt i := by
  apply Config.cstr_id
  intro ch hc
  unfold showInt at hc
  split at hc
  · rcases List.mem_cons.mp hc with rfl | hc
    · exact .inr rfl
    · exact .inl (Config.showNat_digits _ ch hc)
  · exact .inl (Config.showNat_digits _ ch hc)

theorem digit_head {n : Nat} : ∃ a l, showNat n = a :: l ∧ Config.isSpace a = false ∧ a ≠ '-' ∧ a ≠ '+' := by
  cases hs : showNat n with
  | nil => exact absurd hs (Config.showNat_ne n)
  | cons a l =>
    have hd := Config.showNat_digits n a (by rw [hs]; simp)
    refine ⟨a, l, rfl, ?_, ?_, ?_⟩
    · unfold Config.isDigit at hd
      unfold Config.isSpace
      simp only [Bool.and_eq_true, decide_eq_true_eq] at hd
      have h1 : a ≠ ' ' := by rintro rfl; simp at hd
      simp [h1]; omega
    · rintro rfl; simp [Config.isDigit] at hd
    · rintro rfl; simp [Config.isDigit] at hd

theorem atoi64_nat (n : Nat) (h : n < 2 ^ 63) : atoi64 (showNat n) = some (n : Int) := by
  obtain ⟨a, l, hs, h1, h2, h3⟩ := @digit_head n
  obtain ⟨t1, _⟩ := Config.takeWhile_all Config.isDigit (showNat n) (Config.showNat_digits n)
  have hc : Config.cstr (showNat n) = showNat n := Config.cstr_id (fun ch h => .inl (Config.showNat_digits n ch h))
  have hd : (showNat n).dropWhile Config.isSpace = showNat n := by rw [hs, List.dropWhile_cons, h1]; rfl
  have hh : (showNat n).head? = some a := by rw [hs]; rfl
  unfold atoi64
  simp only [hc, hd, hh, Option.some.injEq, h2, h3, or_self, if_false, t1, Config.digits_showNat]
  rw [if_pos ⟨by omega, by omega⟩]

theorem atoi64_neg (n : Nat) (h : n ≤ 2 ^ 63) : atoi64 ('-' :: showNat n) = some (-(n : Int)) := by
  obtain ⟨t1, _⟩ := Config.takeWhile_all Config.isDigit (showNat n) (Config.showNat_digits n)
  have hc : Config.cstr ('-' :: showNat n) = '-' :: showNat n := Config.cstr_id (fun ch h => by
    rcases List.mem_cons.mp h with rfl | h
    · exact .inr rfl
    · exact .inl (Config.showNat_digits n ch h))
  have hd : ('-' :: showNat n).dropWhile Config.isSpace = '-' :: showNat n := by rw [List.dropWhile_cons]; rfl
  unfold atoi64
  simp only [hc, hd, List.head?_cons, true_or, if_true, List.drop_succ_cons, List.drop_zero, t1, Config.digits_showNat]
  rw [if_pos ⟨by omega, by omega⟩]

theorem atoi64_showInt (i : Int) (h1 : -2 ^ 63 ≤ i) (h2 : i < 2 ^ 63) : atoi64 (showInt i) = some i := by
  unfold showInt
  by_cases h : i < 0
  · rw [if_pos h, atoi64_neg _ (by omega)]; congr 1; omega
  · rw [if_neg h, atoi64_nat _ (by omega)]; congr 1; omega

theorem atouint64_nat (n : Nat) (h : n < 2 ^ 64) : atouint64 (showInt n) = n := by
  unfold atouint64
  rw [cstr_showInt]
  unfold showInt
  rw [if_neg (by omega), show ((n : Int).natAbs) = n by omega, Config.strtoul_nat n h]

theorem atouint64_neg (i : Int) (h0 : i < 0) (h : -2 ^ 64 < i) : (atouint64 (showInt i) : Int) = 2 ^ 64 + i := by
  unfold atouint64
  rw [cstr_showInt]
  unfold showInt
  rw [if_pos h0, Config.strtoul_neg i.natAbs (by omega) (by omega)]
  simp only
  omega

end Foxxll.Helpers
