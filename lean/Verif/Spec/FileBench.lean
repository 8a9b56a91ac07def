import Verif.Model.FileBench
/-
What `benchmark_files` is to write and to find.
-/
namespace Foxxll.FileBench

/-- Word `p` of file `f` in the step at `off`: the pattern, and at word 42 of each sector of 512 bytes its number (comment in
benchmark_files.cpp:291 and description of the option `pattern`). -/
def content (c : Cfg) (off f p : Nat) : Nat :=
  if p % 128 = 42 then (off / 512 + p / 128) % 2 ^ 32
  else if c.pattern ≠ 0 then c.pattern
  else c.stepInt * f + p

/-- No sector number is written behind the last whole sector of a step (in particular if steps are multiples of 512 bytes). -/
def Whole (c : Cfg) : Prop := c.stepInt % 128 ≤ 42

/-- The default pattern fits into 32 bits: less than 16 GiB memory. -/
def Small (c : Cfg) : Prop := c.pattern ≠ 0 ∨ c.nfiles * c.stepInt ≤ 2 ^ 32

/-- Reads return words. -/
def Words (out : Nat → Nat → Nat → Option Nat) : Prop := ∀ n f a w, out n f a = some w → w < 2 ^ 32

/-- Reads return what is in the file. -/
def Faithful (out : Nat → Nat → Nat → Option Nat) : Prop := ∀ n f a, out n f a = none

end Foxxll.FileBench
