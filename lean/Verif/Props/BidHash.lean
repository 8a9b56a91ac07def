/-
C150: busy blocks of a prefetch pool are found by their block identifiers.
-/
import Verif.Proofs.BidHash

namespace Foxxll.BidHash

/-- C150: for every program of calls and every way to rehash, with any width of `size_t`, the table of busy blocks gives the answers of a finite map from block identifiers, and iteration
visits exactly the entries of the map, each once. -/
theorem C150_table {V : Type} (w n : Nat) (l : List (Op V)) :
    (run w (List.replicate (n + 1) []) l).1 = (mapRun [] l).1 ∧ (entries (run w (List.replicate (n + 1) []) l).2).Perm (mapRun [] l).2 ∧
    (entries (run w (List.replicate (n + 1) []) l).2).Pairwise fun x y => x.1 ≠ y.1 :=
  have h := run_rel (w := w) l _ _ (empty_rel w n)
  ⟨h.1, h.2.perm, h.2.inv.entries⟩

/-- C150: identifiers that are equal have equal hashes, and these are values of `size_t`. -/
theorem C150_hash (w : Nat) (a b : Bid) (h : a.eq b = true) : bidHash w a = bidHash w b ∧ bidHash w a < 2 ^ w := by
  rw [(eq_iff a b).1 h]
  exact ⟨rfl, Nat.mod_lt _ (Nat.two_pow_pos w)⟩

/-- C150: each entry is in the bucket given by the sum of address and both halves of the offset. -/
theorem C150_bucket {V : Type} (w n : Nat) (l : List (Op V)) (i : Nat) (bucket : List (Bid × V)) (x : Bid × V)
    (hb : (run w (List.replicate (n + 1) []) l).2[i]? = some bucket) (hx : x ∈ bucket) :
    (x.1.storage + x.1.offset % 2 ^ 32 + x.1.offset / 2 ^ 32) % 2 ^ w % (run w (List.replicate (n + 1) []) l).2.length = i := by
  have h := (run_rel (w := w) l _ _ (empty_rel w n)).2.inv.at' i bucket hb x hx
  rw [← h]
  unfold slot bidHash
  simp only [Nat.add_mod, Nat.mod_mod]

/-- C150: `operator ==` compares file and offset. -/
theorem C150_eq (a b : Bid) : a.eq b = true ↔ a.storage = b.storage ∧ a.offset = b.offset := by
  rw [eq_iff]
  cases a; cases b
  simp

/-- C150: the comparison for Microsoft's compiler is a strict total order, in which exactly equal identifiers are equivalent. -/
theorem C150_less (a b c : Bid) : bidLess a a = false ∧ (bidLess a b = true → bidLess b c = true → bidLess a c = true) ∧
    ((bidLess a b = false ∧ bidLess b a = false) ↔ a.eq b = true) ∧ ¬ (bidLess a b = true ∧ bidLess b a = true) := by
  cases a; cases b; cases c
  simp only [bidLess, Bid.eq, Bool.or_eq_true, Bool.and_eq_true, Bool.or_eq_false_iff, Bool.and_eq_false_iff, decide_eq_true_eq, decide_eq_false_iff_not, beq_iff_eq, beq_eq_false_iff_ne]
  omega

/-! Three identifiers with one hash in a table of two buckets, one replaced and one erased. -/

example : (bidHash 64 ⟨1, 0⟩, bidHash 64 ⟨0, 1⟩, bidHash 64 ⟨0, 2 ^ 32⟩) = (1, 1, 1) := by decide

example : (run 64 (List.replicate 2 []) [.insert ⟨1, 0⟩ 'a', .insert ⟨0, 1⟩ 'b', .insert ⟨0, 2 ^ 32⟩ 'c', .rehash 4, .insert ⟨0, 1⟩ 'd', .erase ⟨1, 0⟩,
    .find ⟨0, 1⟩, .find ⟨1, 0⟩, .find ⟨0, 2 ^ 32⟩, .size]).1.drop 6 = [.found (some 'd'), .found none, .found (some 'c'), .size 2] := by decide

example : (entries (run 64 (List.replicate 2 []) [.insert ⟨1, 0⟩ 'a', .insert ⟨0, 1⟩ 'b', .insert ⟨0, 1⟩ 'd', .rehash 4]).2) = [(⟨1, 0⟩, 'a'), (⟨0, 1⟩, 'd')] := by decide

example : bidLess ⟨1, 9⟩ ⟨2, 3⟩ = true ∧ bidLess ⟨2, 3⟩ ⟨2, 4⟩ = true ∧ bidLess ⟨1, 9⟩ ⟨2, 4⟩ = true := by decide

end Foxxll.BidHash
