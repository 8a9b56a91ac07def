import Verif.Proofs.Helpers
/-
Properties C154 and C155: the compile-time `SWITCH`, and the helpers for arrays, containers and texts.
-/
namespace Foxxll.Helpers
open Foxxll.Config (Str)

/-! ### C154: `SWITCH` -/

/-- `DEFAULT` is an `int` and no `int` is smaller (as the comment of the constant says). -/
theorem C154_default : (∃ v : BitVec 32, v.toInt = dflt) ∧ ∀ v : BitVec 32, dflt ≤ v.toInt := by
  refine ⟨⟨BitVec.ofNat 32 (2 ^ 31), by decide⟩, fun v => ?_⟩
  rw [dflt_val]
  exact BitVec.le_toInt v

/-- Full statement, false: the type of the one case with the tag is selected. A DEFAULT that stands before it hides it. -/
theorem C154_false : ∃ (l : List (Int × String)) (tag : Int) (ty : String), (tag, ty) ∈ l ∧ (l.map (·.1)).Nodup ∧
    switch tag (chain l) ≠ some ty :=
  ⟨[(dflt, "other"), (7, "seven")], 7, "seven", by simp, by decide, by decide⟩

/-- What is selected is the first case that has the tag or DEFAULT, and nothing (`NilCase`) exactly if there is none. -/
theorem C154_partial {T : Type} (tag : Int) (l : List (Int × T)) :
    (∀ ty, switch tag (chain l) = some ty ↔
      ∃ pre t post, l = pre ++ (t, ty) :: post ∧ (t = tag ∨ t = dflt) ∧ ∀ p ∈ pre, p.1 ≠ tag ∧ p.1 ≠ dflt) ∧
    (switch tag (chain l) = none ↔ ∀ p ∈ l, p.1 ≠ tag ∧ p.1 ≠ dflt) :=
  ⟨fun ty => switch_some tag ty l, switch_none tag l⟩

/-- With DEFAULT as the last case, as in a `switch` of the language: the case with the tag, and DEFAULT if no case has the tag. -/
theorem C154_last_partial {T : Type} (tag : Int) (l : List (Int × T)) (d : T) (hl : ∀ p ∈ l, p.1 ≠ dflt) (hn : (l.map (·.1)).Nodup) :
    (∀ ty, (tag, ty) ∈ l → switch tag (chain (l ++ [(dflt, d)])) = some ty) ∧
    ((∀ ty, (tag, ty) ∉ l) → switch tag (chain (l ++ [(dflt, d)])) = some d) := by
  constructor
  · intro ty h
    obtain ⟨pre, post, rfl⟩ := List.append_of_mem h
    refine (switch_some tag ty _).mpr ⟨pre, tag, post ++ [(dflt, d)], by simp, .inl rfl, fun p hp => ⟨?_, hl p (by simp [hp])⟩⟩
    intro e
    simp only [List.map_append, List.map_cons, List.nodup_append, List.mem_map, List.mem_cons] at hn
    exact hn.2.2 p.1 ⟨p, hp, rfl⟩ tag (.inl rfl) e
  · intro h
    refine (switch_some tag d _).mpr ⟨l, dflt, [], rfl, .inr rfl, fun p hp => ⟨?_, hl p hp⟩⟩
    rintro rfl
    exact h p.2 hp

example : (∀ p ∈ [((1 : Int), "a"), (2, "b")], p.1 ≠ dflt) ∧ ([((1 : Int), "a"), (2, "b")].map (·.1)).Nodup ∧
    switch 2 (chain ([(1, "a"), (2, "b")] ++ [(dflt, "d")])) = some "b" ∧
    switch 3 (chain ([(1, "a"), (2, "b")] ++ [(dflt, "d")])) = some "d" ∧ switch 3 (chain [(1, "a"), (2, "b")]) = none := by decide

/-! ### C155: arrays, containers, texts -/

/-- Full statement, false: `swap_1D_arrays` exchanges the contents of any two arrays. Arrays that overlap are mixed up. -/
theorem C155_false : ∃ (n a b size : Nat) (m m' : Nat → Nat), a + size ≤ n ∧ b + size ≤ n ∧ swapArrays n a b size m = some m' ∧
    ∃ j, j < size ∧ m' (b + j) ≠ m (a + j) :=
  ⟨4, 0, 1, 3, fun z => z, _, by omega, by omega, rfl, 0, by omega, by decide⟩

/-- Arrays that do not overlap are exchanged, and no other memory changes. -/
theorem C155_swap_partial {D : Type} {n a b size : Nat} (m : Nat → D) (ha : a + size ≤ n) (hb : b + size ≤ n)
    (hd : a + size ≤ b ∨ b + size ≤ a) :
    ∃ m', swapArrays n a b size m = some m' ∧ (∀ j, j < size → m' (a + j) = m (b + j) ∧ m' (b + j) = m (a + j)) ∧
      ∀ z, ¬ (a ≤ z ∧ z < a + size) → ¬ (b ≤ z ∧ z < b + size) → m' z = m z := by
  obtain ⟨m', h1, h2, h3⟩ := swapLoop_spec n a b size 0 m (by omega) (by omega) (by omega)
  refine ⟨m', h1, fun j hj => h2 j (by omega) (by omega), fun z hz1 hz2 => h3 z (fun j _ _ => by omega)⟩

/-- An array with itself: nothing changes. -/
theorem C155_swap_same_partial {D : Type} {n a size : Nat} (m : Nat → D) (ha : a + size ≤ n) : swapArrays n a a size m = some m :=
  swapLoop_same n a size 0 m (by omega)

/-- Arrays that do not fit into the memory are undefined behaviour, unless they are empty. -/
theorem C155_swap_bounds {D : Type} {n a b size : Nat} (m : Nat → D) :
    swapArrays n a b size m = none ↔ 0 < size ∧ (n < a + size ∨ n < b + size) := by
  constructor
  · intro h
    cases size with
    | zero => cases h
    | succ k =>
      refine ⟨by omega, ?_⟩
      false_or_by_contra
      rename_i hc
      exact absurd h (swapLoop_some n a b (k + 1) 0 m (by omega) (by omega))
  · intro h
    exact swapLoop_none n a b size 0 m h.1 (by omega)

example : ∃ m', swapArrays 6 0 3 2 (fun z => z * z) = some m' ∧ m' 0 = 9 ∧ m' 1 = 16 ∧ m' 2 = 4 ∧ m' 3 = 0 ∧ m' 4 = 1 := ⟨_, rfl, by decide⟩

/-- `pop_front`/`pop_begin` called `k` times give the first `k` elements in their order, `pop_back` (`pop` of a stack) the last `k` from the
end, and leave the others; more calls than elements are undefined behaviour. -/
theorem C155_pop {D : Type} (l : List D) (k : Nat) :
    (k ≤ l.length → popMany popFront k l = some (l.take k, l.drop k) ∧
      popMany popBack k l = some (l.reverse.take k, l.take (l.length - k))) ∧
    (l.length < k → popMany popFront k l = none ∧ popMany popBack k l = none) := by
  refine ⟨fun h => ⟨popMany_front k l h, popMany_back k l h⟩, fun h => ⟨?_, ?_⟩⟩
  · refine popMany_none popFront (fun l p e => ?_) k l h
    cases l with
    | nil => cases e
    | cons x l => cases e; rfl
  · refine popMany_none popBack (fun l p e => ?_) k l h
    unfold popBack at e
    cases l with
    | nil => cases e
    | cons x l =>
      rw [List.getLast?_cons] at e
      cases e
      simp

/-- `pop_begin` of a `std::set` gives a smallest element: no element left is smaller than one taken. -/
theorem C155_pop_begin (l : List Nat) (hs : l.Pairwise (· < ·)) {k : Nat} {got left : List Nat} (h : popMany popFront k l = some (got, left)) :
    got.length = k ∧ (∀ x, x ∈ l ↔ x ∈ got ∨ x ∈ left) ∧ ∀ x ∈ got, ∀ y ∈ left, x < y := by
  have hk : k ≤ l.length := by
    false_or_by_contra
    rename_i hc
    rw [((C155_pop l k).2 (by omega)).1] at h
    cases h
  rw [popMany_front k l hk] at h
  cases h
  refine ⟨by simp; omega, fun x => ?_, fun x hx y hy => ?_⟩
  · rw [← List.mem_append, List.take_append_drop]
  · rw [← List.take_append_drop k l, List.pairwise_append] at hs
    exact hs.2.2 x hx y hy

example : popMany popFront 2 [3, 5, 8] = some ([3, 5], [8]) ∧ popMany popBack 2 [3, 5, 8] = some ([8, 5], [3]) ∧
    popMany popBack 4 [3, 5, 8] = none ∧ [3, 5, 8].Pairwise (· < ·) := by decide

/-- Full statement, false: a text that is not a number of the type is not taken for one. -/
theorem C155_text_false : atouint64 "-1".toList = 2 ^ 64 - 1 ∧ atouint64 "disk".toList = 0 ∧ atoi64 "disk".toList = some 0 ∧
    atoi64 "9223372036854775808".toList = none := by decide

/-- Texts made by `to_str` are read back: every `int64_t` by `atoi64`, every `uint64_t` by `atouint64`, which gives a negative number
modulo 2^64. -/
theorem C155_text_partial (i : Int) :
    (-2 ^ 63 ≤ i → i < 2 ^ 63 → atoi64 (toStr i) = some i) ∧
    (0 ≤ i → i < 2 ^ 64 → (atouint64 (toStr i) : Int) = i) ∧
    (i < 0 → -2 ^ 64 < i → (atouint64 (toStr i) : Int) = 2 ^ 64 + i) := by
  refine ⟨atoi64_showInt i, fun h0 h => ?_, atouint64_neg i⟩
  have := atouint64_nat i.toNat (by omega)
  rw [show ((i.toNat : Nat) : Int) = i by omega] at this
  unfold toStr
  rw [this]; omega

example : toStr (-12) = "-12".toList ∧ atoi64 (toStr (-12)) = some (-12) ∧ atoi64 " +7x".toList = some 7 := by decide

end Foxxll.Helpers
