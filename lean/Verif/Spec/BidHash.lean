/-
A finite map from block identifiers, as a list of entries with different keys; it knows nothing of hashes and buckets.
-/
import Verif.Model.BidHash

namespace Foxxll.BidHash

/-- One call on the map. -/
def mapStep {V : Type} (m : List (Bid × V)) : Op V → Ans V × List (Bid × V)
  | .find b => (.found ((m.find? fun x => decide (x.1 = b)).map (·.2)), m)
  | .insert b v => (.none, (b, v) :: m.filter fun x => decide (x.1 ≠ b))
  | .erase b => (.none, m.filter fun x => decide (x.1 ≠ b))
  | .size => (.size m.length, m)
  | .rehash _ => (.none, m)

/-- A program on the map. -/
def mapRun {V : Type} : List (Bid × V) → List (Op V) → List (Ans V) × List (Bid × V)
  | m, [] => ([], m)
  | m, op :: l =>
    let r := mapStep m op
    let q := mapRun r.2 l
    (r.1 :: q.1, q.2)

end Foxxll.BidHash
