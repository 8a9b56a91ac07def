import Verif.Model.UIntPair
/-
Terms used in the statements of `Verif.Props.UIntPair`.
-/

namespace Foxxll.UInt
namespace Pair
variable {h : Nat}

/-- The number a packed integer stands for: its bytes read as one little-endian number
(independent of the 64-bit conversion code). -/
def value (x : Pair h) : Nat := x.low.toNat + 2 ^ 32 * x.high.toNat

end Pair
end Foxxll.UInt
