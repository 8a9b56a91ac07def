/-
Property C109: exporting a block of a file-per-block disk.
-/
import Verif.Proofs.FileExport

namespace Foxxll.Files

/-! In full: when `export_files` returns, the file of the given name in the directory of the disk consists of the first `length` bytes of
the block, the file of the block is gone, and all other files are as before.  When it throws, the contents of the block are not lost. -/

/-- A file of one byte. -/
def oneByte (b : UInt8) : File := { size := 1, byte := fun i => if i = 0 then b else 0 }

/-- **C109 is false** if the directory must not be changed: `remove` and `rename` fail, which is only logged, and `truncate` cuts the
old file of this name. -/
theorem C109_false : ∃ (os : ExpOs) (fs : FS), (fpbExport os "d".toList fs 0 1 "x".toList).2 = false ∧
    (fs (filenameForBlock "d".toList 0)).map (fun f => f.byte 0) = some 1 ∧
    ((fpbExport os "d".toList fs 0 1 "x".toList).1 "x".toList).map (fun f => f.byte 0) = some 7 :=
  ⟨{ removeFails := true, renameFails := true },
    fun n => if n = filenameForBlock "d".toList 0 then some (oneByte 1) else if n = "x".toList then some (oneByte 7) else none,
    by decide +kernel, by decide +kernel, by decide +kernel⟩

/-- **C109 is false** if the name given is the one of the file of the block: the contents of the block are lost. -/
theorem C109_false_self : ∃ (fs : FS), (fs (filenameForBlock "d".toList 0)).map (fun f => f.byte 0) = some 1 ∧
    ∀ n, (fpbExport {} "d".toList fs 0 1 (filenameForBlock "d".toList 0)).1 n = none := by
  refine ⟨fun n => if n = filenameForBlock "d".toList 0 then some (oneByte 1) else none, by decide +kernel, ?_⟩
  intro n
  have e : exportName "d".toList 0 (filenameForBlock "d".toList 0) = filenameForBlock "d".toList 0 := by decide +kernel
  generalize hb : filenameForBlock "d".toList 0 = b at e ⊢
  have h1 : ∀ m, FS.set (fun n => if n = b then some (oneByte 1) else none) b none m = none := by
    intro m
    simp only [FS.set]
    by_cases h : m = b <;> simp [h]
  simp only [fpbExport, hb, e, FS.rename, h1, Bool.false_eq_true, if_false]

/-- **C109**, partial: another name, and `rename` does not fail for other reasons than a missing file (for a block that was never written,
`remove` does not, either). -/
theorem C109_partial {os : ExpOs} {pre : List Char} {fs fs' : FS} {off length : Nat} {name : List Char} {threw : Bool}
    (h : fpbExport os pre fs off length name = (fs', threw)) (hr : os.renameFails = false)
    (hx : fs (filenameForBlock pre off) ≠ none ∨ os.removeFails = false) (hn : exportName pre off name ≠ filenameForBlock pre off) :
    (∀ n, n ≠ exportName pre off name → n ≠ filenameForBlock pre off → fs' n = fs n) ∧
    (threw = false → fs' (filenameForBlock pre off) = none ∧
      ∃ f f', fs (filenameForBlock pre off) = some f ∧ fs' (exportName pre off name) = some f' ∧ f'.size = length ∧
        ∀ i, f'.byte i = if i < length then f.byte i else 0) ∧
    (threw = true → ∀ f, fs (filenameForBlock pre off) = some f → fs' (exportName pre off name) = some f) ∧
    (threw = true ↔ fs (filenameForBlock pre off) = none ∨ os.truncFails = true ∨ 2 ^ 63 ≤ length) := by
  unfold fpbExport at h
  simp only [hr, Bool.false_eq_true, if_false] at h
  generalize hfs1 : (if os.removeFails = true then fs else fs.set (exportName pre off name) none) = fs1 at h
  have ho : fs1 (filenameForBlock pre off) = fs (filenameForBlock pre off) := by
    rw [← hfs1]; split
    · rfl
    · simp [FS.set, hn.symm]
  have hoth : ∀ n, n ≠ exportName pre off name → fs1 n = fs n := by
    intro n h1
    rw [← hfs1]; split
    · rfl
    · simp [FS.set, h1]
  cases hf : fs (filenameForBlock pre off) with
  | none =>
    have e2 : fs1.rename (filenameForBlock pre off) (exportName pre off name) = fs1 := by
      unfold FS.rename; rw [ho, hf]
    rw [e2] at h
    split at h
    · injection h with h1 h2
      subst h1; subst h2
      exact ⟨fun n h1 _ => hoth n h1, by simp, by simp, by simp⟩
    · rename_i f hft
      exfalso
      rcases hx with hx | hx
      · exact hx hf
      · rw [hx] at hfs1; rw [← hfs1] at hft; simp [FS.set] at hft
  | some f =>
    have e2 : fs1.rename (filenameForBlock pre off) (exportName pre off name) =
        (fs1.set (filenameForBlock pre off) none).set (exportName pre off name) (some f) := by
      unfold FS.rename; rw [ho, hf]
    rw [e2] at h
    have et : ((fs1.set (filenameForBlock pre off) none).set (exportName pre off name) (some f)) (exportName pre off name) = some f := by
      simp [FS.set]
    rw [et] at h
    simp only at h
    split at h
    · rename_i hc
      injection h with h1 h2
      subst h1; subst h2
      refine ⟨fun n h1 h2 => ?_, by simp, ?_, ⟨fun _ => .inr hc, fun _ => rfl⟩⟩
      · simp only [FS.set, if_neg h1, if_neg h2]; exact hoth n h1
      · intro _ f' hf'
        injection hf' with hf'
        subst hf'
        exact et
    · rename_i hc
      injection h with h1 h2
      subst h1; subst h2
      refine ⟨fun n h1 h2 => ?_, fun _ => ⟨?_, f, truncate f length, rfl, by simp [FS.set], rfl, fun i => rfl⟩, by simp, by simpa using hc⟩
      · simp only [FS.set, if_neg h1, if_neg h2]; exact hoth n h1
      · simp [FS.set, hn.symm]

/-- **C109**, the place of the new file: the directory of the disk. -/
theorem C109_place {dir base : List Char} (off : Nat) (name : List Char) (hd : dir = [] ∨ ∃ d, dir = d ++ ['/']) (hb : '/' ∉ base) :
    exportName (dir ++ base) off name = dir ++ name := exportName_eq off name hd hb

example : exportName "/mnt/d".toList 4096 "out".toList = "/mnt/out".toList := by decide +kernel

/-- A block of two bytes exported with length three. -/
example : ∃ fs', fpbExport {} "/d".toList (fun n => if n = filenameForBlock "/d".toList 8 then some { size := 2, byte := fun i => if i < 2 then 5 else 0 } else none) 8 3
      "out".toList = (fs', false) ∧ (fs' "/out".toList).map (fun f => (f.size, f.byte 1, f.byte 2)) = some (3, 5, 0) :=
  ⟨_, rfl, by decide +kernel⟩

end Foxxll.Files
