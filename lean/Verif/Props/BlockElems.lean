/-
Property C148: the members of typed blocks keep their values, in memory and through the file; iteration; addressing across blocks.
-/
import Verif.Proofs.BlockElems

namespace Foxxll.BlockElems

open Foxxll.Arith (TParams)

/-- **C148**, values: for every instantiation that compiles, every array of blocks, every program and every initial contents of memory and file, each value
that is loaded from an element, BID or meta info is the one known: the last value stored there, or copied or read from a block that had it; no
other operation changes it.  A program runs to its end exactly if each of its operations is allowed, and otherwise stops right before one that is not. -/
theorem C148_values (A : Arr) (hM : 0 < A.p.aM) (ha : A.p.accept = some (A.n, A.f)) (ops : List Op) (s : St) :
    Follows A.p.raw Know.nothing (run A s ops).1 ∧
    ((∀ op ∈ ops, Allowed A op) ↔ (run A s ops).2.isSome = true) ∧
    ((run A s ops).2.isSome = true → (run A s ops).1.map (·.1) = ops) ∧
    ((run A s ops).2 = none → ∃ op rest, ops = (run A s ops).1.map (·.1) ++ op :: rest ∧ ¬ Allowed A op) := by
  obtain ⟨h1, ⟨rest, h2, h3⟩, h4⟩ := run_allowed (A := A) ops s
  refine ⟨run_sound ⟨hM, ha⟩ ops _ s ⟨(fun _ _ _ _ _ e => nomatch e), (fun _ _ _ _ e => nomatch e)⟩, h1, ?_, h4⟩
  intro hs
  rw [h3 hs, List.append_nil] at h2
  exact h2.symm

/-- An array of two blocks of 64 bytes: five elements of 8 bytes, one BID, and 4 bytes of meta info. -/
def sample : Arr := ⟨⟨64, 8, 8, 1, 4, 4⟩, 5, 0, 4096, 2⟩

example : 0 < sample.p.aM ∧ sample.p.accept = some (sample.n, sample.f) := by decide

/-- A program that stores the last element, the BID and the meta info of a block, writes it, reads it into the other block, and changes the
first block: the values of the second block are known and loaded. -/
example :
    (run sample ⟨fun _ => 0, fun _ => 0⟩
      [.set 0 (.elem 4) [1, 2, 3, 4, 5, 6, 7, 8], .set 0 .info [9, 9, 9, 9], .write 0 ⟨128, some 64⟩, .set 0 (.elem 4) [0, 0, 0, 0, 0, 0, 0, 0],
        .read 1 ⟨128, none⟩, .copy 0 1, .get 1 (.elem 4), .get 0 .info]).1.map (·.2) =
      [[], [], [], [], [], [], [1, 2, 3, 4, 5, 6, 7, 8], [9, 9, 9, 9]] ∧
    (((((((Know.nothing.after 64 (.set 0 (.elem 4) [1, 2, 3, 4, 5, 6, 7, 8])).after 64 (.set 0 .info [9, 9, 9, 9])).after 64 (.write 0 ⟨128, some 64⟩)).after 64
      (.set 0 (.elem 4) [0, 0, 0, 0, 0, 0, 0, 0])).after 64 (.read 1 ⟨128, none⟩))).after 64 (.copy 0 1)).val 0 .info = some [9, 9, 9, 9] := by decide

/-- One that indexes behind the elements, and one that gives the BID of a smaller block. -/
example : (run sample ⟨fun _ => 0, fun _ => 0⟩ [.get 0 (.elem 5)]).2.isSome = false ∧
    (run sample ⟨fun _ => 0, fun _ => 0⟩ [.write 1 ⟨0, some 63⟩]).2.isSome = false := by decide

/-- **C148**, nothing else is touched: no program changes a byte of memory outside of its array, nor a byte of the file outside of the ranges it writes. -/
theorem C148_frame (A : Arr) (hM : 0 < A.p.aM) (ha : A.p.accept = some (A.n, A.f)) : ∀ (ops : List Op) (s s' : St),
    (run A s ops).2 = some s' →
    (∀ x, x < A.base ∨ A.base + A.count * A.p.raw ≤ x → s'.mem x = s.mem x) ∧
    (∀ y, (∀ k b, Op.write k b ∈ ops → y < b.off ∨ b.off + A.p.raw ≤ y) → s'.file y = s.file y)
  | [], s, s', h => by
    simp only [run, Option.some.injEq] at h
    subst h
    exact ⟨fun _ _ => rfl, fun _ _ => rfl⟩
  | op :: ops, s, s', h => by
    unfold run at h
    split at h
    · rename_i t out ht
      obtain ⟨f1, f2⟩ := step_frame ⟨hM, ha⟩ ht
      obtain ⟨g1, g2⟩ := C148_frame A hM ha ops t s' h
      refine ⟨fun x hx => (g1 x hx).trans (f1 x hx), fun y hy => (g2 y fun k b hb => hy k b (List.mem_cons_of_mem _ hb)).trans (f2 y ?_)⟩
      rintro k b rfl
      exact hy k b (List.mem_cons_self ..)
    · exact nomatch h

example : (run sample ⟨fun _ => 0, fun _ => 0⟩ [.set 1 .info [1, 1, 1, 1], .write 1 ⟨0, none⟩]).2.isSome = true := by decide

/-- **C148**, iteration: the loop from `begin()` to `end()` ends after visiting exactly the elements, in their order. -/
theorem C148_iterate (p : TParams) (n f a : Nat) (h : p.accept = some (n, f)) :
    ∃ fuel, walk p (endIt p n a) fuel (beginIt a) = some ((List.range n).map fun i => a + (Part.elem i).off p n) := by
  have hs : 0 < p.s := by
    unfold TParams.accept TParams.size at h
    split at h
    · exact nomatch h
    · rename_i hn
      split at hn
      · rename_i hc; exact hc.2
      · exact nomatch hn
  exact ⟨n + 1, walk_spec p hs n a (n + 1) (Nat.lt_succ_self n)⟩

example : (TParams.mk 64 8 8 1 4 4).accept = some (5, 0) ∧
    walk ⟨64, 8, 8, 1, 4, 4⟩ (endIt ⟨64, 8, 8, 1, 4, 4⟩ 5 4096) 6 (beginIt 4096) = some [4096, 4104, 4112, 4120, 4128] := by decide

/-- **C148**, `has_only_data` means what its comment says: no meta info, BIDs or filler; and it is exactly the condition under which the elements of
all blocks of an array can be addressed as one array of elements. -/
theorem C148_only_data (A : Arr) (hT : 0 < A.p.aT ∧ A.p.aT ∣ A.p.s) (hM : 0 < A.p.aM) (hv : A.p.m = 0 → A.p.aM = 1)
    (ha : A.p.accept = some (A.n, A.f)) :
    (hasOnlyData A.p A.n = true ↔ A.p.nref = 0 ∧ A.p.m = 0 ∧ A.f = 0) ∧
    (hasOnlyData A.p A.n = true ↔
      ∀ k i, A.addr k + (Part.elem i).off A.p A.n = A.base + (k * A.n + i) * A.p.s) := by
  obtain ⟨l1, l2, l3, _, l5, _⟩ := Arith.C47_layout A.p A.n A.f hM ha
  constructor
  · constructor
    · intro h
      have h := of_decide_eq_true h
      omega
    · rintro ⟨h1, h2, h3⟩
      apply decide_eq_true
      rw [h3] at l5
      unfold TParams.sizeOf at l5
      rw [if_pos rfl] at l5
      have e1 : A.p.align = A.p.aT := by
        unfold TParams.align
        rw [hv h2, if_pos h1]
        omega
      have fix : ∀ x a, 0 < a → a ∣ x → Arith.roundUp x a = x := fun x a g1 g2 =>
        Arith.roundUp_eq_of_dvd x a x g1 g2 (Nat.le_refl _) (by omega)
      have e2 : A.p.dsize A.n = A.n * A.p.s := by
        unfold TParams.dsize TParams.infoOff TParams.refOff
        rw [h1, h2, hv h2, if_pos rfl, Nat.mul_zero, Nat.add_zero, Nat.add_zero]
        exact fix _ _ (by omega) (Nat.one_dvd _)
      rw [← l5]
      unfold TParams.baseSize
      rw [e1, e2]
      exact fix _ _ hT.1 (Nat.dvd_trans hT.2 (Nat.dvd_mul_left _ _))
  · constructor
    · intro h k i
      have h := of_decide_eq_true h
      simp only [Arr.addr, Part.off]
      rw [h, Nat.add_mul, Nat.mul_assoc, Nat.add_assoc]
    · intro h
      have h := h 1 0
      simp only [Arr.addr, Part.off, Nat.one_mul, Nat.zero_mul, Nat.add_zero] at h
      exact decide_eq_true (by omega)

/-- blocks of 8 elements of 8 bytes, and the sample with BIDs -/
example : (TParams.mk 64 8 8 0 0 1).accept = some (8, 0) ∧ hasOnlyData ⟨64, 8, 8, 0, 0, 1⟩ 8 = true ∧
    hasOnlyData sample.p sample.n = false := by decide

end Foxxll.BlockElems
