import Verif.Model.Iostats
/-
Model of the evaluation of the I/O statistics: `stats_data::summary`, `fetch_sum` and the warnings of
`to_ostream` (/repo/foxxll/io/iostats.cpp:384-434, 498-662, 664-813).

`double` is modelled without rounding (`Dbl`).  Formatting of the output is left out: the report is the
list of the devices named in it.
-/
namespace Foxxll.Summary
open Foxxll.Iostats (FileData)

/-- `double` without rounding: a number, +infinity or NaN.  (-infinity does not occur: bytes are not negative.) (type of read_time_, iostats.hpp:257). -/
inductive Dbl
  | fin (q : Rat)
  | inf
  | nan
  deriving DecidableEq

/-- Division of doubles; the divisor is +0.0 if it is zero (iostats.cpp:418, 424, 608). -/
def Dbl.div : Dbl → Dbl → Dbl
  | .fin a, .fin b => if b = 0 then (if a = 0 then .nan else .inf) else .fin (a / b)
  | .fin _, .inf => .fin 0
  | .inf, .fin _ => .inf
  | _, _ => .nan

/-- Sum of doubles (`std::accumulate`, iostats.cpp:420-422). -/
def Dbl.add : Dbl → Dbl → Dbl
  | .fin a, .fin b => .fin (a + b)
  | .nan, _ => .nan
  | _, .nan => .nan
  | _, _ => .inf

/-- `<` of doubles; false if one of them is NaN (iostats.cpp:405, 771). -/
def Dbl.lt : Dbl → Dbl → Bool
  | .fin a, .fin b => decide (a < b)
  | .fin _, .inf => true
  | _, _ => false

/-- The operations of the type `T` of a summary: `<`, `T(0)`, `+`, conversion to double, `quiet_NaN()`. -/
structure Num (α : Type) where
  lt : α → α → Bool
  zero : α
  add : α → α → α
  toDbl : α → Dbl
  nan : α

/-- `unsigned` (`m = 2 ^ 32`) and `external_size_type` (`m = 2 ^ 64`, common/types.hpp:27); their `quiet_NaN()` is 0. -/
def uns (m : Nat) : Num Nat := ⟨fun a b => decide (a < b), 0, fun a b => (a + b) % m, fun a => .fin a, 0⟩

/-- `double` (type of the times and speeds, iostats.cpp:604-647). -/
def dbl : Num Dbl := ⟨Dbl.lt, .fin 0, Dbl.add, id, .nan⟩

/-- `stats_data::summary<T>` (iostats.hpp:505-515) -/
structure Sum (α : Type) where
  total : α
  min : α
  max : α
  average : Dbl
  median : Dbl
  values : List (α × Nat)
  deriving DecidableEq

/-- The comparison given to `std::sort` (iostats.cpp:404-406) must be a strict weak order on the values, else
the behaviour is undefined. -/
def Weak {α : Type} (lt : α → α → Bool) (l : List (α × Nat)) : Prop :=
  (∀ a ∈ l, lt a.1 a.1 = false) ∧
  (∀ a ∈ l, ∀ b ∈ l, ∀ c ∈ l, lt a.1 b.1 = true → lt b.1 c.1 = true → lt a.1 c.1 = true) ∧
  (∀ a ∈ l, ∀ b ∈ l, ∀ c ∈ l, lt a.1 b.1 = false → lt b.1 a.1 = false → lt b.1 c.1 = false → lt c.1 b.1 = false →
    lt a.1 c.1 = false ∧ lt c.1 a.1 = false)

/-- `std::sort` (iostats.cpp:402-407): some ascending permutation; `none` is undefined behaviour. -/
def Sorts {α : Type} (lt : α → α → Bool) (l : List (α × Nat)) : Option (List (α × Nat)) → Prop
  | none => ¬ Weak lt l
  | some r => Weak lt l ∧ r.Perm l ∧ r.Pairwise (fun a b => lt b.1 a.1 = false)

/-- `std::accumulate` (iostats.cpp:387-389, 420-422). -/
def accumulate {α : Type} (N : Num α) (l : List α) : α := l.foldl N.add N.zero

/-- The constructor of `summary` after sorting (iostats.cpp:409-433); the value in the middle is taken with `getD`, its index is
in range. -/
def summarize {α : Type} (N : Num α) (v : List (α × Nat)) : Sum α :=
  match v with
  | [] => ⟨N.nan, N.nan, N.nan, N.toDbl N.nan, N.toDbl N.nan, []⟩
  | x :: l =>
    let w := (x :: l).map (·.1)
    let mid := w.length / 2
    let total := accumulate N w
    { min := x.1
      max := w.getLast?.getD x.1
      median := if w.length % 2 ≠ 0 then N.toDbl (w.getD mid x.1)
        else (N.toDbl (N.add (w.getD (mid - 1) x.1) (w.getD mid x.1))).div (.fin 2)
      total := total
      average := (N.toDbl total).div (.fin w.length)
      values := x :: l }

/-- The constructor of `summary` (iostats.cpp:392-434): `get` is `get_value`. -/
def Summary {α : Type} (N : Num α) (fs : List FileData) (get : FileData → α) (r : Option (Sum α)) : Prop :=
  ∃ v, Sorts N.lt (fs.map fun f => (get f, f.dev)) v ∧ r = v.map (summarize N)

/-- A time of the statistics as `double` (iostats.hpp:257). -/
def secs (t : Int) : Dbl := .fin t

/-- `get_read_count`, `get_write_count` (iostats.cpp:497-501, 512-516), with `m = 2 ^ 32`, and `get_read_bytes`, `get_write_bytes`
(iostats.cpp:527-531, 543-547), with `m = 2 ^ 64`, through `fetch_sum` (iostats.cpp:384-390). -/
def fetchSum (m : Nat) (fs : List FileData) (get : FileData → Nat) : Nat := accumulate (uns m) (fs.map get)

/-- `get_read_speed_summary`, `get_write_speed_summary` (iostats.cpp:604-611, 622-629): the value for one file. -/
def speed (bytes : FileData → Nat) (time : FileData → Int) (f : FileData) : Dbl := (Dbl.fin (bytes f)).div (secs (time f))

/-- `get_pread_speed_summary`, `get_pwrite_speed_summary`, `get_pio_speed_summary` (iostats.cpp:613-620, 631-638, 640-647): the value
for one file; `p` is `p_reads_`, `p_writes_`, `p_ios_`. -/
def pspeed (bytes : FileData → Nat) (p : Int) (f : FileData) : Dbl := (Dbl.fin (bytes f)).div (secs p)

/-- Bytes of both directions (iostats.cpp:644), in `external_size_type`. -/
def bothBytes (f : FileData) : Nat := (f.readBytes + f.writeBytes) % 2 ^ 64

/-- The limit 0.5 (iostats.cpp:771, 780). -/
def half : Dbl := .fin (1 / 2)

/-- The loops (iostats.cpp:771-775, 780-784) from index `i`, for at most `n` rounds; `none` is an access beyond the end (also if
the rounds do not suffice; there are as many as there are values) (iostats.cpp:771-775, 780-784). -/
def slowLoop (v : List (Dbl × Nat)) (back : Dbl) : Nat → Nat → Option (List Nat)
  | 0, _ => none
  | n + 1, i =>
    match v[i]? with
    | none => none
    | some x => if ((x.1.div back).lt half) = true then (slowLoop v back n (i + 1)).map (x.2 :: ·) else some []

/-- iostats.cpp:768-775 (iostats.cpp:776-784): the devices named. -/
def slowList (s : Sum Dbl) : Option (List Nat) :=
  match s.values, s.values.getLast? with
  | x :: _, some b => (slowLoop s.values b.1 s.values.length 1).map (x.2 :: ·)
  | _, _ => none

/-- iostats.cpp:762-764 -/
def slowCond (pio pread pwrite : Sum Dbl) : Bool :=
  (pio.min.div pio.max).lt half || (pread.min.div pread.max).lt half || (pwrite.min.div pwrite.max).lt half

/-- iostats.cpp:762-785: no warning, or the devices named for reading and for writing. -/
def slowReport (pio pread pwrite : Sum Dbl) : Option (Option (List Nat × List Nat)) :=
  if slowCond pio pread pwrite then
    (slowList pread).bind fun r => (slowList pwrite).map fun w => some (r, w)
  else some none

/-- First and last device of a summary (iostats.cpp:793, 797). -/
def ends {α : Type} (s : Sum α) : Option (Nat × Nat) :=
  match s.values.head?, s.values.getLast? with
  | some a, some b => some (a.2, b.2)
  | _, _ => none

/-- iostats.cpp:787-810: no warning, or the devices with the smallest and biggest load, for reading and for writing. -/
def loadReport (rd wr : Sum Nat) : Option (Option ((Nat × Nat) × (Nat × Nat))) :=
  if ((Dbl.fin rd.min).div (.fin rd.max)).lt half || ((Dbl.fin wr.min).div (.fin wr.max)).lt half then
    (ends rd).bind fun r => (ends wr).map fun w => some (r, w)
  else some none

end Foxxll.Summary
