import Verif.Model.Config
/-
Model of the compile-time `SWITCH` (/repo/foxxll/common/tmeta.hpp) and of the helpers for arrays, containers and texts of
/repo/foxxll/common/utils.hpp that `Verif.Model.Arith` does not have.

Simplifications: a type is a value of a parameter `T`; memory is a function of which the first `n` elements exist; containers are
lists of their elements in the order of iteration; `int` has 32 bits, `long long` 64.
-/
namespace Foxxll.Helpers
open Foxxll.Config (Str)

/-! ### tmeta.hpp -/

/-- `DEFAULT` (tmeta.hpp:26): computed in `unsigned`, converted to `int`. -/
def dflt : Int := (~~~((~~~(0 : BitVec 32)) >>> (1 : Nat))).toInt

/-- `NilCase` and `CASE<Tag, Type_, Next_>` (tmeta.hpp:28-36). -/
inductive Case (T : Type)
  | nil
  | case (tag : Int) (ty : T) (next : Case T)

/-- `SWITCH<Tag, Case>::type` (tmeta.hpp:38-62); `none` is `NilCase`. -/
def switch {T : Type} (tag : Int) : Case T → Option T
  | .nil => none
  | .case caseTag ty next => if caseTag = tag ∨ caseTag = dflt then some ty else switch tag next

/-! ### utils.hpp -/

/-- `std::swap(a[i], b[i])` (utils.hpp:92) in a memory of `n` elements; an access outside is undefined (`none`). -/
def swapAt {D : Type} (n : Nat) (x y : Nat) (m : Nat → D) : Option (Nat → D) :=
  if x < n ∧ y < n then some (fun z => if z = y then m x else if z = x then m y else m z) else none

/-- The loop of `swap_1D_arrays` (utils.hpp:91-92), `k` passes from index `i` on. -/
def swapLoop {D : Type} (n a b : Nat) : Nat → Nat → (Nat → D) → Option (Nat → D)
  | 0, _, m => some m
  | k + 1, i, m => (swapAt n (a + i) (b + i) m).bind (swapLoop n a b k (i + 1))

/-- `swap_1D_arrays(a, b, size)` (utils.hpp:88-93). -/
def swapArrays {D : Type} (n a b size : Nat) (m : Nat → D) : Option (Nat → D) := swapLoop n a b size 0 m

/-- `pop_front` (utils.hpp:116-122) and `pop_begin` (utils.hpp:132-138): the element and what is left; undefined (`none`) when empty. -/
def popFront {D : Type} : List D → Option (D × List D)
  | [] => none
  | x :: l => some (x, l)

/-- `pop_back` (utils.hpp:124-130), and `pop` (utils.hpp:108-114) of a `std::stack`. -/
def popBack {D : Type} (l : List D) : Option (D × List D) :=
  match l.getLast? with
  | none => none
  | some x => some (x, l.dropLast)

/-- Calling one of them `k` times (utils.hpp:108-138): the results in their order, and what is left. -/
def popMany {D : Type} (f : List D → Option (D × List D)) : Nat → List D → Option (List D × List D)
  | 0, l => some ([], l)
  | k + 1, l => (f l).bind fun p => (popMany f k p.2).map fun q => (p.1 :: q.1, q.2)

/-- `to_str` (utils.hpp:34-41) of an integer type wider than `char`. -/
def toStr (i : Int) : Str := Config.showInt i

/-- `atouint64` (utils.hpp:52-59), `strtoull` without asking for the end of the number. -/
def atouint64 (s : Str) : Nat := (Config.strtoul (Config.cstr s)).1

/-- `atoi64` (utils.hpp:43-50): `atoll` is undefined (`none`) when the value does not fit. -/
def atoi64 (s : Str) : Option Int :=
  let t := (Config.cstr s).dropWhile Config.isSpace
  let u := if t.head? = some '-' ∨ t.head? = some '+' then t.drop 1 else t
  let v : Int := Config.digits (u.takeWhile Config.isDigit)
  let i := if t.head? = some '-' then -v else v
  if -2 ^ 63 ≤ i ∧ i < 2 ^ 63 then some i else none

end Foxxll.Helpers
