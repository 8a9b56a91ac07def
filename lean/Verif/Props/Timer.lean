import Verif.Proofs.Timer
/-
C87: stop watches.
-/
namespace Foxxll.Timer

/-- The property fails: a second `stop` adds the time since the last `start` again. -/
theorem C87_false : ∃ (h : List (Nat × Op)) (now : Nat), Ordered h now ∧ shown h now = 3 ∧ read (run {} h) now = 10 :=
  ⟨[(5, .start), (8, .stop), (12, .stop)], 20, by simp [Ordered], by decide, by decide⟩

/-- A second `start` forgets the time since the first one. -/
theorem C87_false_start : ∃ (h : List (Nat × Op)) (now : Nat), Ordered h now ∧ shown h now = 7 ∧ read (run {} h) now = 4 :=
  ⟨[(5, .start), (8, .start), (12, .stop)], 20, by simp [Ordered], by decide, by decide⟩

/-- What holds: if start and stop are called in turn, the timer shows at any time how long it ran since
the last reset and what was added to it by any thread. -/
theorem C87_partial {h : List (Nat × Op)} {now : Nat} (ho : Ordered h now) (hb : Bracketed false h) : read (run {} h) now = shown h now :=
  read_shown ho hb

/-- Reading does not depend on calls in between: a timer that does not run shows the same for ever, and one
that runs shows `d` more after `d`. -/
theorem C87_later {h : List (Nat × Op)} {now : Nat} (d : Nat) :
    read (run {} h) (now + d) = read (run {} h) now + (if (run {} h).running then (d : Int) else 0) := by
  unfold read; cases (run {} h).running <;> simp <;> omega

example : Ordered [(5, .start), (8, .add 100), (9, .reset), (11, .add 7), (12, .stop), (14, .start)] 20 ∧
    Bracketed false [(5, .start), (8, .add 100), (9, .reset), (11, .add 7), (12, .stop), (14, .start)] ∧
    shown [(5, .start), (8, .add 100), (9, .reset), (11, .add 7), (12, .stop), (14, .start)] 20 = 16 := by
  refine ⟨by simp [Ordered], by simp [Bracketed], by decide⟩

end Foxxll.Timer
