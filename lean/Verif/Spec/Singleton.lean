import Verif.Model.Singleton
/-
Notions for the properties of singletons.
-/
namespace Foxxll.Single

/-- A state that can be reached from the start of the program. -/
def Reach (dep : Nat → List Nat) (s : State) : Prop := ∃ as, run dep init as = some s

/-- The thread is inside `get_instance`. -/
def busy (s : State) (t : Nat) : Prop := s.stack t ≠ []

/-- Constructors do not depend on each other in a circle. -/
def Acyclic (dep : Nat → List Nat) : Prop := ∃ rank : Nat → Nat, ∀ i, ∀ j ∈ dep i, rank j < rank i

/-- Next, a thread receives the pointer of a singleton that is not yet registered for destruction. -/
def Early (s : State) (a : Act) : Prop :=
  ∃ t i fs, a = .go t ∧ s.stack t = .test i :: fs ∧ s.inst i ≠ .null ∧ i ∉ s.handlers

/-- No thread ever receives a pointer early. -/
def NeverEarly (dep : Nat → List Nat) : State → List Act → Prop
  | _, [] => True
  | s, a :: as => ¬ Early s a ∧ ∀ s', step dep s a = some s' → NeverEarly dep s' as

/-- `x` comes before `y` in the list. -/
def Before (l : List Nat) (x y : Nat) : Prop := ∃ a b, l = a ++ x :: b ∧ y ∈ b

end Foxxll.Single
