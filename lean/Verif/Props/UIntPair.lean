/-
Properties C44 and C45: the packed 40/48-bit integers compute and compare like
numbers modulo 2^(32+h), for every width `h ≤ 32` of the high part (8 and 16 in
the library).
-/
import Verif.Model.UIntPair
import Verif.Proofs.UIntPair

namespace Foxxll.UInt
namespace Pair
variable {h : Nat}

/-- **C44**, conversions: 64 → packed → 64 is the identity on in-range values (others fail the
assert, and are truncated in release builds); packed → 64 → packed is the identity;
32-bit unsigned values are kept and negative 32-bit values become two's complement. -/
theorem C44_conversions (hh : h ≤ 32) :
    (∀ x : Pair h, x.u64.toNat = x.value) ∧
    (∀ x : Pair h, ofU64 x.u64 = some x) ∧
    (∀ a : BitVec 64, a.toNat < 2 ^ (32 + h) → ∃ x : Pair h, ofU64 a = some x ∧ x.value = a.toNat) ∧
    (∀ a : BitVec 64, 2 ^ (32 + h) ≤ a.toNat → (ofU64 a : Option (Pair h)) = none) ∧
    (∀ a : BitVec 64, (ofU64Release a : Pair h).value = a.toNat % 2 ^ (32 + h)) ∧
    (∀ a : BitVec 32, (ofU32 a : Pair h).value = a.toNat) ∧
    (∀ a : BitVec 32, ((ofI32 a : Pair h).value : Int) = a.toInt % 2 ^ (32 + h)) := by
  have hz : ∀ a : BitVec 64, a >>> (32 + h) = 0 ↔ a.toNat < 2 ^ (32 + h) := by
    intro a
    rw [← BitVec.toNat_inj, BitVec.toNat_ushiftRight, Nat.shiftRight_eq_div_pow]
    simp only [BitVec.ofNat_eq_ofNat, BitVec.toNat_ofNat, Nat.zero_mod]
    rw [Nat.div_eq_zero_iff]
    have := Nat.two_pow_pos (32 + h); omega
  have hrel : ∀ a : BitVec 64, a.toNat < 2 ^ (32 + h) →
      (ofU64 a : Option (Pair h)) = some (ofU64Release a) := by
    intro a ha
    unfold ofU64 ofU64Release
    rw [if_pos ((hz a).2 ha)]
  refine ⟨u64_toNat hh, ?_, ?_, ?_, value_ofU64Release hh, ?_, ?_⟩
  · intro x
    have hx := value_lt x
    rw [hrel _ (by rw [u64_toNat hh]; exact hx)]
    congr 1
    apply value_inj
    rw [value_ofU64Release hh, u64_toNat hh, Nat.mod_eq_of_lt hx]
  · intro a ha
    exact ⟨_, hrel a ha, by rw [value_ofU64Release hh, Nat.mod_eq_of_lt ha]⟩
  · intro a ha
    unfold ofU64
    rw [if_neg (by rw [hz]; omega)]
  · intro a; simp [ofU32, value]
  · intro a
    have ha := a.isLt
    have hpp : (2 : Int) ^ (32 + h) = ((2 ^ (32 + h) : Nat) : Int) := by simp
    have hpow : 2 ^ (32 + h) = 2 ^ 32 * 2 ^ h := Nat.pow_add 2 32 h
    have h2 := Nat.two_pow_pos h
    unfold ofI32
    split
    · rename_i h0
      simp only [value, BitVec.ofNat_eq_ofNat, BitVec.toNat_ofNat, Nat.zero_mod, Nat.mul_zero, Nat.add_zero]
      have hi : a.toInt = a.toNat := by
        rw [BitVec.toInt_eq_toNat_cond] at h0 ⊢
        split at h0 <;> rename_i hc
        · rw [if_pos hc]
        · omega
      rw [hi, hpp, Int.emod_eq_of_lt (by omega)]
      have : 2 ^ 32 * 1 ≤ 2 ^ 32 * 2 ^ h := Nat.mul_le_mul_left _ h2
      omega
    · rename_i h0
      have hi : a.toInt = a.toNat - 2 ^ 32 := by
        rw [BitVec.toInt_eq_toNat_cond] at h0 ⊢
        split at h0 <;> rename_i hc
        · omega
        · rw [if_neg hc]; simp
      have hge : 2 ^ 32 ≤ 2 ^ (32 + h) := Nat.pow_le_pow_right (by omega) (by omega)
      simp only [value, BitVec.toNat_allOnes]
      rw [hi, hpp, ← Int.add_emod_right, Int.emod_eq_of_lt (by omega) (by omega)]
      rw [Nat.mul_sub, ← hpow, Nat.mul_one]
      omega

/-- **C44**, arithmetic: increment, decrement and addition are arithmetic modulo 2^(32+h). -/
theorem C44_arithmetic (hh : h ≤ 32) (x y : Pair h) :
    x.inc.value = (x.value + 1) % 2 ^ (32 + h) ∧
    x.dec.value = (x.value + (2 ^ (32 + h) - 1)) % 2 ^ (32 + h) ∧
    (x.add y).value = (x.value + y.value) % 2 ^ (32 + h) := by
  have hl := x.low.isLt
  have hH := x.high.isLt
  have hly := y.low.isLt
  have hHy := y.high.isLt
  have hpow : 2 ^ (32 + h) = 2 ^ 32 * 2 ^ h := Nat.pow_add 2 32 h
  have h2 := Nat.two_pow_pos h
  have key : ∀ a b : Nat, a < 2 ^ 32 → a + 2 ^ 32 * (b % 2 ^ h) = (a + 2 ^ 32 * b) % 2 ^ (32 + h) := by
    intro a b ha
    rw [hpow, Nat.mod_mul, Nat.add_mul_mod_self_left, Nat.mod_eq_of_lt ha,
      Nat.add_mul_div_left _ _ (by decide), Nat.div_eq_of_lt ha, Nat.zero_add]
  have hall : ∀ v : BitVec 32, v = BitVec.allOnes 32 ↔ v.toNat = 2 ^ 32 - 1 := by
    intro v; rw [← BitVec.toNat_inj, BitVec.toNat_allOnes]
  have hzero : ∀ v : BitVec 32, v = 0 ↔ v.toNat = 0 := by
    intro v; rw [← BitVec.toNat_inj]; simp
  refine ⟨?_, ?_, ?_⟩
  · unfold inc
    split <;> rename_i hc
    · rw [hall] at hc
      simp only [value, BitVec.ofNat_eq_ofNat, BitVec.toNat_ofNat, Nat.zero_mod, BitVec.toNat_add,
        Nat.add_mod_mod]
      rw [key _ _ (by decide)]
      congr 1; omega
    · rw [hall] at hc
      simp only [value, BitVec.ofNat_eq_ofNat, BitVec.toNat_ofNat, BitVec.toNat_add]
      rw [show (1 % 2 ^ 32) = 1 by decide, Nat.mod_eq_of_lt (by omega : x.low.toNat + 1 < 2 ^ 32)]
      have := value_lt (⟨x.low + 1, x.high⟩ : Pair h)
      simp only [value, BitVec.ofNat_eq_ofNat, BitVec.toNat_ofNat, BitVec.toNat_add] at this
      rw [show (1 % 2 ^ 32) = 1 by decide, Nat.mod_eq_of_lt (by omega : x.low.toNat + 1 < 2 ^ 32)] at this
      rw [Nat.mod_eq_of_lt (by omega)]
      omega
  · unfold dec
    split <;> rename_i hc
    · rw [hzero] at hc
      simp only [value, BitVec.ofNat_eq_ofNat, BitVec.toNat_ofNat, BitVec.toNat_sub, BitVec.toNat_allOnes]
      rw [key _ _ (by omega), hc]
      rcases Nat.eq_zero_or_pos h with h0 | h0
      · subst h0
        have : x.high.toNat = 0 := by omega
        rw [this]
      · rw [Nat.mod_eq_of_lt (show 1 < 2 ^ h from Nat.one_lt_two_pow (by omega))]
        have e : 2 ^ 32 - 1 + 2 ^ 32 * (2 ^ h - 1 + x.high.toNat)
            = 0 + 2 ^ 32 * x.high.toNat + (2 ^ (32 + h) - 1) := by
          rw [Nat.mul_add, Nat.mul_sub, ← hpow]
          have : 2 ^ 32 * 1 ≤ 2 ^ 32 * 2 ^ h := Nat.mul_le_mul_left _ h2
          omega
        rw [e]
    · rw [hzero] at hc
      have hv := value_lt x
      simp only [value, BitVec.ofNat_eq_ofNat, BitVec.toNat_ofNat, BitVec.toNat_sub] at hv ⊢
      rw [show (1 % 2 ^ 32) = 1 by decide,
        show 2 ^ 32 - 1 + x.low.toNat = (x.low.toNat - 1) + 2 ^ 32 by omega, Nat.add_mod_right,
        Nat.mod_eq_of_lt (by omega : x.low.toNat - 1 < 2 ^ 32)]
      have hp := Nat.two_pow_pos (32 + h)
      rw [show x.low.toNat + 2 ^ 32 * x.high.toNat + (2 ^ (32 + h) - 1)
        = (x.low.toNat - 1 + 2 ^ 32 * x.high.toNat) + 2 ^ (32 + h) by omega, Nat.add_mod_right,
        Nat.mod_eq_of_lt (by omega)]
  · have hp : 2 ^ h ≤ 2 ^ 32 := Nat.pow_le_pow_right (by omega) hh
    have hs : (x.low.setWidth 64 + y.low.setWidth 64 : BitVec 64).toNat = x.low.toNat + y.low.toNat := by
      rw [BitVec.toNat_add, BitVec.toNat_setWidth, BitVec.toNat_setWidth]
      omega
    unfold add
    simp only [value]
    rw [mask_low, hs, BitVec.toNat_setWidth, BitVec.toNat_add, BitVec.toNat_add, mask_high hh,
      BitVec.toNat_ushiftRight, hs, BitVec.toNat_setWidth, BitVec.toNat_setWidth,
      Nat.mod_eq_of_lt (show x.high.toNat < 2 ^ 64 by omega),
      Nat.mod_eq_of_lt (show y.high.toNat < 2 ^ 64 by omega),
      Nat.mod_eq_of_lt (show x.high.toNat + y.high.toNat < 2 ^ 64 by omega)]
    have hm : (x.low.toNat + y.low.toNat) >>> 32 % 2 ^ h < 2 ^ h := Nat.mod_lt _ h2
    rw [Nat.mod_eq_of_lt (show _ < 2 ^ 64 by omega), Nat.add_mod_mod, key _ _ (Nat.mod_lt _ (by decide)),
      Nat.shiftRight_eq_div_pow]
    congr 1
    have := Nat.mod_add_div (x.low.toNat + y.low.toNat) (2 ^ 32)
    omega

example : (⟨0xffffffff, 0xff⟩ : Pair 8).inc = ⟨0, 0⟩ := by decide
example : (⟨0xffffffff, 0x7f⟩ : Pair 8).value + (⟨3, 0⟩ : Pair 8).value
    = (add (⟨0xffffffff, 0x7f⟩ : Pair 8) ⟨3, 0⟩).value := by decide

/-- **C45**: all six comparison operators agree with the order of the values, and
`min`/`max` are the extreme values. -/
theorem C45_order (x y : Pair h) :
    (x.eq y = true ↔ x.value = y.value) ∧ (x.ne y = true ↔ x.value ≠ y.value) ∧
    (x.lt y = true ↔ x.value < y.value) ∧ (x.le y = true ↔ x.value ≤ y.value) ∧
    (x.gt y = true ↔ x.value > y.value) ∧ (x.ge y = true ↔ x.value ≥ y.value) ∧
    (min : Pair h).value ≤ x.value ∧ x.value ≤ (max : Pair h).value ∧
    (min : Pair h).value = 0 ∧ (max : Pair h).value = 2 ^ (32 + h) - 1 := by
  have h1 := x.low.isLt
  have h2 := y.low.isLt
  have hmx : (max : Pair h).value = 2 ^ (32 + h) - 1 := by
    have := Nat.two_pow_pos h
    simp only [max, value, BitVec.toNat_allOnes]
    rw [Nat.pow_add, Nat.mul_sub]
    have : 2 ^ 32 * 1 ≤ 2 ^ 32 * 2 ^ h := Nat.mul_le_mul_left _ this
    omega
  have hmn : (min : Pair h).value = 0 := by simp [min, value]
  have hx := value_lt x
  refine ⟨?_, ?_, ?_, ?_, ?_, ?_, by omega, by omega, hmn, hmx⟩ <;>
    simp only [eq, ne, lt, le, gt, ge, value, Bool.and_eq_true, Bool.or_eq_true, beq_iff_eq, bne_iff_ne,
      ← BitVec.toNat_inj, BitVec.ult, BitVec.ule, decide_eq_true_eq, Ne] <;> omega

example : lt (⟨0xffffffff, 1⟩ : Pair 16) ⟨0, 2⟩ = true := by decide

end Pair
end Foxxll.UInt
