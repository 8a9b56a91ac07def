import Verif.Model.Reports
/-
What a program with scoped reports asked for, read off its calls alone.
-/
namespace Foxxll.Reports

/-- The objects that the program constructs: the bytes, and whether it is a `scoped_print_timer`. -/
def made : List Op → List (Nat × Bool)
  | [] => []
  | .newTimer b :: l => (b, true) :: made l
  | .newStats b :: l => (b, false) :: made l
  | _ :: l => made l

/-- The lines in the log in which object `i` says that it starts. -/
def begins (log : List Line) (i : Nat) : List Line := log.filter fun l => decide (l.obj = i ∧ l.text = .starting)
/-- The reports of object `i`. -/
def reports (log : List Line) (i : Nat) : List Line := log.filter fun l => decide (l.obj = i ∧ l.text ≠ .starting)

/-- The number of reports that the program asked for: by `report` and `final_report`, and by the end of the scope, unless `final_report` was called. -/
def asked (ops : List Op) (i : Nat) : Nat :=
  ops.count (.report i) + ops.count (.finalReport i) + ops.countP (fun o => match o with | .endTimer j _ => j == i | _ => false) +
  (if .endStats i ∈ ops ∧ .finalReport i ∉ ops then 1 else 0)

/-- `r` is the number of bytes per second, rounded down, if `b` bytes take `us` microseconds; no rate is given for 0 bytes. -/
def RateOk (b us : Nat) : Option Nat → Prop
  | none => b = 0
  | some r => b ≠ 0 ∧ r * us ≤ b * 10 ^ 6 ∧ b * 10 ^ 6 < (r + 1) * us

/-- The call makes object `i` report, after the calls `ops`. -/
def Says (ops : List Op) (op : Op) (i : Nat) : Prop :=
  op = .report i ∨ op = .finalReport i ∨ (op = .endStats i ∧ .finalReport i ∉ ops) ∨ ∃ later, op = .endTimer i later

/-- No object is copied. -/
def NoCopy (ops : List Op) : Prop := ∀ i, .copyStats i ∉ ops

end Foxxll.Reports
