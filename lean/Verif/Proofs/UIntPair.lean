/-
Auxiliary lemmas for the theorems of `Verif.Props.UIntPair`.
-/
import Verif.Model.UIntPair
import Verif.Spec.UIntPair

namespace Foxxll.UInt
namespace Pair
variable {h : Nat}

theorem value_lt (x : Pair h) : x.value < 2 ^ (32 + h) := by
  have h1 := x.low.isLt
  have h2 := x.high.isLt
  have : 2 ^ 32 * (x.high.toNat + 1) ≤ 2 ^ 32 * 2 ^ h := Nat.mul_le_mul_left _ h2
  rw [← Nat.pow_add] at this
  unfold value; omega

theorem value_inj (x y : Pair h) (hv : x.value = y.value) : x = y := by
  have h1 := x.low.isLt
  have h2 := y.low.isLt
  unfold value at hv
  have hl : x.low.toNat = y.low.toNat := by omega
  have hh : x.high.toNat = y.high.toNat := by omega
  cases x; cases y
  simp only [mk.injEq]
  exact ⟨BitVec.eq_of_toNat_eq hl, BitVec.eq_of_toNat_eq hh⟩

theorem u64_toNat (hh : h ≤ 32) (x : Pair h) : x.u64.toNat = x.value := by
  have h1 := x.low.isLt
  have h2 := x.high.isLt
  have hp : 2 ^ h ≤ 2 ^ 32 := Nat.pow_le_pow_right (by omega) hh
  unfold u64 value
  rw [BitVec.toNat_or, BitVec.toNat_shiftLeft, BitVec.toNat_setWidth, BitVec.toNat_setWidth,
    Nat.mod_eq_of_lt (by omega : x.high.toNat < 2 ^ 64), Nat.mod_eq_of_lt (by omega : x.low.toNat < 2 ^ 64),
    Nat.shiftLeft_eq, Nat.mod_eq_of_lt (by omega), Nat.mul_comm, ← Nat.two_pow_add_eq_or_of_lt h1]
  omega

theorem mask_low (a : BitVec 64) :
    ((a &&& (BitVec.allOnes 32).setWidth 64).setWidth 32).toNat = a.toNat % 2 ^ 32 := by
  rw [BitVec.toNat_setWidth, BitVec.toNat_and, BitVec.toNat_setWidth, BitVec.toNat_allOnes,
    Nat.mod_eq_of_lt (by decide : 2 ^ 32 - 1 < 2 ^ 64), Nat.and_two_pow_sub_one_eq_mod]
  simp

theorem mask_high (hh : h ≤ 32) (a : BitVec 64) :
    (a &&& (BitVec.allOnes h).setWidth 64).toNat = a.toNat % 2 ^ h := by
  have hp : 2 ^ h ≤ 2 ^ 32 := Nat.pow_le_pow_right (by omega) hh
  rw [BitVec.toNat_and, BitVec.toNat_setWidth, BitVec.toNat_allOnes,
    Nat.mod_eq_of_lt (by have := Nat.two_pow_pos h; omega), Nat.and_two_pow_sub_one_eq_mod]

theorem value_ofU64Release (hh : h ≤ 32) (a : BitVec 64) :
    (ofU64Release a : Pair h).value = a.toNat % 2 ^ (32 + h) := by
  unfold ofU64Release value
  simp only
  rw [mask_low, BitVec.toNat_setWidth, mask_high hh, Nat.mod_mod, BitVec.toNat_ushiftRight,
    Nat.shiftRight_eq_div_pow, Nat.pow_add, Nat.mod_mul]

end Pair
end Foxxll.UInt
