/-
Auxiliary lemmas for the theorems of `Verif.Props.Arith`.
-/
import Verif.Model.Arith
import Verif.Spec.Arith

namespace Foxxll.Arith

theorem place_spec (A metaSize buffer : Nat) (hA : 0 < A) :
    A ∣ placeResult A metaSize buffer + metaSize ∧
    buffer + ptrSize < placeResult A metaSize buffer ∧
    placeResult A metaSize buffer ≤ buffer + ptrSize + A := by
  unfold placeResult
  simp only
  generalize hr : buffer + ptrSize + metaSize = r
  have hlt := Nat.mod_lt r hA
  have hd := Nat.mod_add_div r A
  refine ⟨⟨r / A + 1, ?_⟩, by omega, by omega⟩
  rw [Nat.mul_add, Nat.mul_one]
  omega

theorem attempt_done {A size metaSize buffer r : Nat} {may : Bool} {c : Chunk} (hA : 0 < A)
    (h : attempt A size metaSize may buffer r = .done c) :
    GoodChunk A size metaSize c ∧ c.buffer = buffer ∧ buffer ≠ 0 := by
  obtain ⟨h1, h2, h3⟩ := place_spec A metaSize buffer hA
  unfold attempt at h
  simp only at h
  split at h
  · exact absurd h (by simp)
  · split at h
    · exact absurd h (by simp)
    · split at h
      · split at h
        · exact absurd h (by simp)
        · split at h
          · exact absurd h (by simp)
          · simp only [AOut.done.injEq] at h; subst h
            exact ⟨⟨h1, by simp only; omega, by simp only; omega⟩, rfl, by assumption⟩
      · simp only [AOut.done.injEq] at h; subst h
        exact ⟨⟨h1, by simp only; omega, by simp only; omega⟩, rfl, by assumption⟩

theorem attempt_no_assert {A size metaSize buffer r : Nat} {may : Bool} (hA : 0 < A) :
    attempt A size metaSize may buffer r ≠ .assertFail := by
  obtain ⟨h1, h2, h3⟩ := place_spec A metaSize buffer hA
  intro h
  unfold attempt at h
  simp only at h
  split at h
  · exact absurd h (by simp)
  · split at h
    · omega
    · split at h
      · split at h
        · exact absurd h (by simp)
        · split at h
          · omega
          · exact absurd h (by simp)
      · exact absurd h (by simp)

theorem attempt_false {A size metaSize buffer r : Nat} : attempt A size metaSize false buffer r ≠ .retry := by
  unfold attempt
  simp only
  split
  · simp
  · split
    · simp
    · simp

theorem loadBytes_storePtr (m : Mem) (addr v n : Nat) (hn : n ≤ ptrSize) :
    loadBytes (storePtr m addr v) addr n = v % 256 ^ n := by
  induction n with
  | zero => simp [loadBytes, Nat.mod_one]
  | succ n ih =>
    rw [loadBytes, ih (by omega), Nat.mod_pow_succ]
    congr 2
    unfold storePtr
    rw [if_pos (by omega), Nat.add_sub_cancel_left]

theorem loadPtr_storePtr (m : Mem) (addr v : Nat) (hv : v < 2 ^ 64) :
    loadPtr (storePtr m addr v) addr = v := by
  rw [loadPtr, loadBytes_storePtr _ _ _ _ (Nat.le_refl _)]
  exact Nat.mod_eq_of_lt hv

theorem loadBytes_congr (m m' : Mem) (addr n : Nat) (h : ∀ a, addr ≤ a → a < addr + n → m a = m' a) :
    loadBytes m addr n = loadBytes m' addr n := by
  induction n with
  | zero => rfl
  | succ n ih =>
    rw [loadBytes, loadBytes, ih (fun a h1 h2 => h a h1 (by omega)), h (addr + n) (by omega) (by omega)]

theorem loadPtr_congr (m m' : Mem) (addr : Nat) (h : ∀ a, addr ≤ a → a < addr + ptrSize → m a = m' a) :
    loadPtr m addr = loadPtr m' addr := loadBytes_congr m m' addr ptrSize h

theorem le_roundUp (x a : Nat) (ha : 0 < a) : x ≤ roundUp x a := by
  unfold roundUp
  have hd := Nat.mod_add_div (x + a - 1) a
  have hlt := Nat.mod_lt (x + a - 1) ha
  rw [Nat.mul_comm] at hd
  omega

theorem roundUp_lt (x a : Nat) (ha : 0 < a) : roundUp x a < x + a := by
  unfold roundUp
  have hd := Nat.mod_add_div (x + a - 1) a
  rw [Nat.mul_comm] at hd
  omega

theorem dvd_roundUp (x a : Nat) : a ∣ roundUp x a := Nat.dvd_mul_left _ _

theorem roundUp_eq_of_dvd (x a r : Nat) (ha : 0 < a) (hr : a ∣ r) (h1 : x ≤ r) (h2 : r < x + a) :
    roundUp x a = r := by
  have l1 := le_roundUp x a ha
  have l2 := roundUp_lt x a ha
  obtain ⟨k, hk⟩ := dvd_roundUp x a
  obtain ⟨j, hj⟩ := hr
  have e : k = j := by
    rcases Nat.lt_trichotomy k j with h | h | h
    · have : a * (k + 1) ≤ a * j := Nat.mul_le_mul_left _ h
      rw [Nat.mul_add, Nat.mul_one] at this; omega
    · exact h
    · have : a * (j + 1) ≤ a * k := Nat.mul_le_mul_left _ h
      rw [Nat.mul_add, Nat.mul_one] at this; omega
  rw [hk, hj, e]

theorem xorshift_inj (s : Nat) (hs : 0 < s) (x y : BitVec 64) (h : x ^^^ (x >>> s) = y ^^^ (y >>> s)) :
    x = y := by
  apply BitVec.eq_of_getLsbD_eq
  have key : ∀ d i, 64 - i ≤ d → x.getLsbD i = y.getLsbD i := by
    intro d
    induction d with
    | zero => intro i hi; rw [BitVec.getLsbD_of_ge _ _ (by omega), BitVec.getLsbD_of_ge _ _ (by omega)]
    | succ d ih =>
      intro i hi
      have h1 := congrArg (fun v => BitVec.getLsbD v i) h
      simp only [BitVec.getLsbD_xor, BitVec.getLsbD_ushiftRight] at h1
      by_cases h64 : i < 64
      · rw [ih (s + i) (by omega)] at h1
        revert h1
        cases x.getLsbD i <;> cases y.getLsbD i <;> cases y.getLsbD (s + i) <;> simp
      · rw [BitVec.getLsbD_of_ge _ _ (by omega), BitVec.getLsbD_of_ge _ _ (by omega)]
  intro i _
  exact key 64 i (by omega)

theorem mul_inj (a b : BitVec 64) (hab : a * b = 1#64) (x y : BitVec 64) (h : x * a = y * a) : x = y := by
  have := congrArg (· * b) h
  simp only [BitVec.mul_assoc, hab, BitVec.mul_one] at this
  exact this

theorem addnot_eq (s : Nat) (x : BitVec 64) : x + ~~~(x <<< s) = x * (1#64 - BitVec.twoPow 64 s) - 1#64 := by
  rw [BitVec.not_eq_neg_add, BitVec.shiftLeft_eq_mul_twoPow, BitVec.mul_sub, BitVec.mul_one]
  rw [BitVec.sub_eq_add_neg, BitVec.sub_eq_add_neg, BitVec.sub_eq_add_neg, BitVec.add_assoc]

theorem addnot_inj (s : Nat) (b : BitVec 64) (hb : (1#64 - BitVec.twoPow 64 s) * b = 1#64)
    (x y : BitVec 64) (h : x + ~~~(x <<< s) = y + ~~~(y <<< s)) : x = y := by
  rw [addnot_eq, addnot_eq, BitVec.sub_left_inj] at h
  exact mul_inj _ b hb x y h

theorem add8_inj (x y : BitVec 64) (h : x + (x <<< 3) = y + (y <<< 3)) : x = y := by
  rw [BitVec.shiftLeft_eq_mul_twoPow, BitVec.shiftLeft_eq_mul_twoPow] at h
  have e : ∀ z : BitVec 64, z + z * BitVec.twoPow 64 3 = z * 9#64 := by
    intro z
    rw [show (9#64 : BitVec 64) = 1#64 + BitVec.twoPow 64 3 by decide, BitVec.mul_add, BitVec.mul_one]
  rw [e, e] at h
  exact mul_inj 9#64 (BitVec.ofNat 64 10248191152060862009) (by decide) x y h

end Foxxll.Arith
