import Verif.Model.Files
/-
Model of `fileperblock_file::export_files` (/repo/foxxll/io/fileperblock_file.cpp:122-142) on systems other than Windows.
Log messages are left out.
-/
namespace Foxxll.Files

/-- `s.substr(0, s.find_last_of("/") + 1)` (fileperblock_file.cpp:125): everything up to the last slash; without slash `npos + 1` is 0. -/
def dirPart (s : List Char) : List Char := (s.reverse.dropWhile (· != '/')).reverse

/-- The new name (fileperblock_file.cpp:124-125). -/
def exportName (pre : List Char) (off : Nat) (name : List Char) : List Char := dirPart (filenameForBlock pre off) ++ name

/-- Failures of the system calls for other reasons than missing files (fileperblock_file.cpp:126-141). -/
structure ExpOs where
  removeFails : Bool := false
  renameFails : Bool := false
  truncFails : Bool := false

/-- POSIX `rename`: an existing file of the new name is replaced (fileperblock_file.cpp:130). -/
def FS.rename (fs : FS) (old new : List Char) : FS :=
  match fs old with
  | none => fs
  | some f => (fs.set old none).set new (some f)

/-- `export_files` (fileperblock_file.cpp:122-142): the directory tree and whether `io_error` is thrown.  Failures of `remove` (fileperblock_file.cpp:126) and `rename` (fileperblock_file.cpp:130)
are only logged; a length from 2^63 on is negative as `off_t` and refused by `truncate` (fileperblock_file.cpp:136). -/
def fpbExport (os : ExpOs) (pre : List Char) (fs : FS) (off length : Nat) (name : List Char) : FS × Bool :=
  let original := filenameForBlock pre off
  let target := exportName pre off name
  let fs1 := if os.removeFails then fs else fs.set target none
  let fs2 := if os.renameFails then fs1 else fs1.rename original target
  match fs2 target with
  | none => (fs2, true)
  | some f => if os.truncFails ∨ 2 ^ 63 ≤ length then (fs2, true) else (fs2.set target (some (truncate f length)), false)

end Foxxll.Files
