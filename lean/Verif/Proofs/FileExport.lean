/-
Lemmas on `export_files`.
-/
import Verif.Model.FileExport
import Verif.Proofs.Config

namespace Foxxll.Files

theorem padded_noSlash (w n : Nat) : '/' ∉ padded w n := by
  unfold padded
  simp only [List.mem_append, List.mem_replicate, not_or, not_and]
  refine ⟨fun _ => by decide, ?_⟩
  intro h
  have := Config.decimal_digits _ _ _ h
  revert this
  decide

theorem dirPart_append {a b : List Char} (hb : '/' ∉ b) : dirPart (a ++ b) = dirPart a := by
  unfold dirPart
  rw [List.reverse_append]
  have : ∀ (c d : List Char), '/' ∉ c → (c ++ d).dropWhile (· != '/') = d.dropWhile (· != '/') := by
    intro c
    induction c with
    | nil => intro d _; rfl
    | cons x c ih =>
      intro d h
      simp only [List.mem_cons, not_or] at h
      rw [List.cons_append, List.dropWhile_cons_of_pos (by simpa using fun e => h.1 e.symm)]
      exact ih d h.2
  rw [this _ _ (by simpa using hb)]

theorem dirPart_slash (a : List Char) : dirPart (a ++ ['/']) = a ++ ['/'] := by
  unfold dirPart
  simp

theorem dirPart_none {a : List Char} (h : '/' ∉ a) : dirPart a = [] := by
  have := dirPart_append (a := []) h
  simpa [dirPart] using this

theorem exportName_eq {dir base : List Char} (off : Nat) (name : List Char) (hd : dir = [] ∨ ∃ d, dir = d ++ ['/']) (hb : '/' ∉ base) :
    exportName (dir ++ base) off name = dir ++ name := by
  unfold exportName filenameForBlock
  have h1 : '/' ∉ "_fpb_".toList := by decide
  rw [dirPart_append (padded_noSlash _ _), dirPart_append h1, dirPart_append hb]
  rcases hd with rfl | ⟨d, rfl⟩
  · rfl
  · rw [dirPart_slash]

end Foxxll.Files
