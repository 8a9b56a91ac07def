import Verif.Model.Locks
/-
Notions for properties C117 and C118.
-/
namespace Foxxll.Locks

/-- Thread `t` waits for a mutex that thread `u` has locked. -/
def WaitsFor (s : St) (t u : Nat) : Prop := ∃ m l, s.rem t = .lock m :: l ∧ s.holder m = some u

/-- Thread `t` can go on, as far as mutexes are concerned. -/
def Free (s : St) (t : Nat) : Prop := s.rem t ≠ [] ∧ ∀ u, ¬ WaitsFor s t u

/-- Chain of threads that wait for mutexes of the next one. -/
inductive Chain (s : St) : Nat → Nat → Prop
  | one {t u} : WaitsFor s t u → Chain s t u
  | more {t u v} : WaitsFor s t u → Chain s u v → Chain s t v

/-- The next action of thread `t` is an access to `x`. -/
def Reads (s : St) (t : Nat) (x : Fld) : Prop := ∃ l, s.rem t = .rd x :: l
def Writes (s : St) (t : Nat) (x : Fld) : Prop := ∃ l, s.rem t = .wr x :: l

/-- Data race: two threads are about to access the same data, one of them to write. -/
def Race (s : St) (x : Fld) : Prop := ∃ t u, t ≠ u ∧ Writes s t x ∧ (Reads s u x ∨ Writes s u x)

end Foxxll.Locks
