import Verif.Model.Lifetime
/-
Notions for property C116.
-/
namespace Foxxll.Life

/-- A client that deletes a file only after `wait` has returned for all requests of the file, and does not submit to deleted files nor to
stopped queues. -/
def Legal (fileOf : Nat → Nat) (s : St) : Op → Prop
  | .submit _ r f _ refused => refused = false ∧ s.falive f = true ∧ fileOf r = f
  | .delFile f => ∀ r ∈ s.ids, fileOf r = f → r ∈ s.waited
  | _ => True

inductive Reach (fileOf : Nat → Nat) : St → Prop
  | start : Reach fileOf init
  | next {s s'} (op : Op) : Reach fileOf s → Legal fileOf s op → step s op = .ok s' → Reach fileOf s'

/-- Several steps of any client. -/
def run (s : St) : List Op → Res St
  | [] => .ok s
  | op :: ops =>
    match step s op with
    | .ok s' => run s' ops
    | x => x

/-- The whole life of a request of a serving queue, once it has been taken by thread `t`: transfer, five steps of completion, end of the local pointer. -/
def served (t : Nat) : List Op := List.replicate 7 (.work t)

end Foxxll.Life
