import Verif.Spec.PoolFailAgree
/-
How `steal` of the two models of the pools corresponds when it waits, for `Verif.Props.PoolStealAgree`.
-/
namespace Foxxll.PoolFail

variable {V : Type}

/-- The choices of the model with contents when `wait_any` and `check_all_busy` see all requests that have ended. -/
def firstDone (s : Pool.St V) : Option Nat := s.wbusy.findIdx? fun e => Pool.isDone s e.req
def allDone (s : Pool.St V) : List Nat := (s.wbusy.map (·.req)).filter (Pool.isDone s)

/-- The events for `steal` when these requests end while it sleeps in `wait_any`. -/
def sleeping (s : Pool.St V) (rs : List Nat) : List (List Ev) := List.replicate s.wbusy.length [] ++ [rs.map .finish]

/-- The loop of `write_pool::resize` when it shrinks: for each block, `steal` at once or after sleeping while requests end. -/
inductive Shrinks (ordered : Bool) : Pool.St V → List (List (List Ev)) → Pool.St V → Prop
  | stop {s s'} : s.pc = .resizing 0 → Pool.step ordered s (.work none []) = .ok s' → Shrinks ordered s [] s'
  | now {s s1 s' k evss} : s.pc = .resizing (k + 1) → Pool.step ordered s (.work (firstDone s) (allDone s)) = .ok s1 →
      Shrinks ordered s1 evss s' → Shrinks ordered s ([] :: evss) s'
  | sleep {s s1 s2 s' k evss} (rs : List Nat) : s.pc = .resizing (k + 1) → s.wfree = [] → firstDone s = none → Serves ordered s rs s1 →
      Pool.step ordered s1 (.work (firstDone s1) (allDone s1)) = .ok s2 → Shrinks ordered s2 evss s' → Shrinks ordered s (sleeping s rs :: evss) s'

end Foxxll.PoolFail
