import Verif.Model.Summary
/-
What a summary of measurements has to be.
-/
namespace Foxxll.Summary
open Foxxll.Iostats (FileData)

/-- `m` is the median: the middle between the lower middle value `a` (fewer than half of the values are smaller, at
most half are greater) and the upper middle value `b` (fewer than half are greater, at most half are smaller). -/
def Median (l : List Rat) (m : Rat) : Prop :=
  ∃ a ∈ l, ∃ b ∈ l, 2 * m = a + b ∧
    (2 * l.countP (fun x => decide (x < a)) < l.length ∧ 2 * l.countP (fun x => decide (a < x)) ≤ l.length) ∧
    (2 * l.countP (fun x => decide (b < x)) < l.length ∧ 2 * l.countP (fun x => decide (x < b)) ≤ l.length)

/-- Total, smallest and greatest value, average and median of the values `l`. -/
structure Good (l : List Rat) (total min max average median : Rat) : Prop where
  total : total = l.sum
  min : min ∈ l ∧ ∀ x ∈ l, min ≤ x
  max : max ∈ l ∧ ∀ x ∈ l, x ≤ max
  average : average * l.length = l.sum
  median : Median l median

/-- Some device has less than half of what another one has. -/
def Uneven (fs : List FileData) (get : FileData → Nat) : Prop := ∃ f ∈ fs, ∃ g ∈ fs, 2 * get f < get g

/-- Less than half of the greatest. -/
def Low (fs : List FileData) (get : FileData → Nat) (f : FileData) : Prop := ∃ g ∈ fs, 2 * get f < get g

instance (fs : List FileData) (get : FileData → Nat) (f : FileData) : Decidable (Low fs get f) := by unfold Low; infer_instance

/-- The devices `l` are one with the least value (if there are measurements) and all others that have less than
half of the greatest. -/
def Names (fs : List FileData) (get : FileData → Nat) (p : Int) (l : List Nat) : Prop :=
  ∃ f fs', fs.Perm (f :: fs') ∧ (0 < p → ∀ g ∈ fs', get f ≤ get g) ∧
    l.Perm (f.dev :: (fs'.filter fun g => decide (0 < p ∧ Low fs get g)).map (·.dev))

end Foxxll.Summary
