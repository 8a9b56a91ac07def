import Verif.Proofs.AlignedAgree
/-
C127, agreement of the model of aligned allocation on a heap with the model of a single call (C46).
-/
namespace Foxxll.AlignedHeap
open Foxxll.Arith (AOut)

/-- If the sizes do not add up to 2^64 or more, a call on a heap with any contents has the outcome that the model of a single call gives, with the same
pointer, buffer and length of the buffer; none is undefined. -/
theorem C127_agree (A size metaSize : Nat) (hf : A + 8 + metaSize + size < 2 ^ 64) (l : List Ans) (h : Heap) :
    (∀ c, Arith.alignedAlloc A size metaSize h.may (l.map fun a => (a.buf, a.re)) = some (.done c) ↔
      ∃ h', alignedAlloc A size metaSize l h = some (.ok c.result c.buffer, h') ∧ c.len = (h'.live.head?.map (·.2)).getD 0) ∧
    (Arith.alignedAlloc A size metaSize h.may (l.map fun a => (a.buf, a.re)) = some .badAlloc ↔ ∃ h', alignedAlloc A size metaSize l h = some (.badAlloc, h')) ∧
    (Arith.alignedAlloc A size metaSize h.may (l.map fun a => (a.buf, a.re)) = some .assertFail ↔ ∃ h', alignedAlloc A size metaSize l h = some (.assertFail, h')) ∧
    (Arith.alignedAlloc A size metaSize h.may (l.map fun a => (a.buf, a.re)) = none ↔ alignedAlloc A size metaSize l h = none) ∧
    ∀ h', alignedAlloc A size metaSize l h ≠ some (.ub, h') := by
  have hv := alloc_view A size metaSize hf l h
  rw [← hv]
  cases hq : alignedAlloc A size metaSize l h with
  | none => simp
  | some r =>
    obtain ⟨r, h'⟩ := r
    have hub : r ≠ .ub := by
      rintro rfl
      exact no_ub A size metaSize hf l h hq
    cases r with
    | ub => exact absurd rfl hub
    | ok p b =>
      refine ⟨fun c => ?_, by simp [view], by simp [view], by simp [view], by simp⟩
      simp only [Option.bind_some, view, Option.some.injEq, AOut.done.injEq, Prod.mk.injEq, Res.ok.injEq]
      constructor
      · rintro rfl; exact ⟨h', ⟨⟨rfl, rfl⟩, rfl⟩, rfl⟩
      · rintro ⟨_, ⟨⟨h1, h2⟩, rfl⟩, h3⟩
        cases c; simp_all
    | _ => simp [view]

/-- A call on a heap with another buffer, where `realloc` moves the memory once. -/
example : 16 + 8 + 0 + 8 < 2 ^ 64 ∧ Arith.alignedAlloc 16 8 0 true [(100, 500), (200, 0)] = some (.done ⟨200, 32, 224⟩) ∧
    ∃ h', alignedAlloc 16 8 0 [⟨100, 500, fun _ => 0⟩, ⟨200, 0, fun _ => 0⟩] { live := [(1000, 64)] } = some (.ok 224 200, h') :=
  ⟨by decide, by decide, _, rfl⟩

end Foxxll.AlignedHeap
