import Verif.Model.Timer
/-
What a stop watch shall show.
-/
namespace Foxxll.Timer

/-- The watch runs during microsecond `t`: the last of start and stop until then was start. -/
def runsAt (h : List (Nat × Op)) (t : Nat) : Bool :=
  ((h.filter fun x => decide (x.1 ≤ t) && (x.2 == .start || x.2 == .stop)).getLast?.map (·.2)) == some .start

/-- The calls after the last reset, and its time. -/
def sinceReset (h : List (Nat × Op)) : Nat × List (Nat × Op) :=
  h.foldl (fun a x => if x.2 = .reset then (x.1, []) else (a.1, a.2 ++ [x])) (0, [])

/-- What a call adds. -/
def Op.amount : Op → Int
  | .add d => d
  | _ => 0

/-- What was added from other timers. -/
def added (h : List (Nat × Op)) : Int := (h.map fun x => x.2.amount).sum

/-- The time shown at `now`: the microseconds since the last reset during which the watch ran, and
what was added since. -/
def shown (h : List (Nat × Op)) (now : Nat) : Int :=
  (((List.range now).filter fun t => decide ((sinceReset h).1 ≤ t) && runsAt h t).length : Int) + added (sinceReset h).2

/-- Times do not decrease and end before `now`. -/
def Ordered : List (Nat × Op) → Nat → Prop
  | [], _ => True
  | x :: l, now => x.1 ≤ now ∧ (∀ y ∈ l, x.1 ≤ y.1) ∧ Ordered l now

/-- start and stop in turn; `r`: the watch runs before. -/
def Bracketed : Bool → List (Nat × Op) → Prop
  | _, [] => True
  | r, x :: l =>
    match x.2 with
    | .start => r = false ∧ Bracketed true l
    | .stop => r = true ∧ Bracketed false l
    | _ => Bracketed r l

end Foxxll.Timer
