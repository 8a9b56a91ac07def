/-
Properties C49 and C50: the addressable queues refine the specification.
-/
import Verif.Proofs.AddrQueue

namespace Foxxll.AddrQ
open Spec

variable {P : Type}

/-- **C49**: for every sequence of calls, the answers of the FIFO queue are those of the
specification in which the rank of a key is the time of its last insertion: `insert` reports
whether the key was new and moves an old key to the back, `erase` removes exactly that key,
`top`/`pop` give the present key that was inserted longest ago, and undefined behaviour
occurs exactly for `top`/`pop` on the empty queue and for dead handles. -/
theorem C49_fifo_refines (ops : List (Op Nat)) :
    Run (fun a b => decide (a < b)) {} (stamp 0 ops) (Fifo.run {} ops) := by
  apply fifo_run
  constructor <;> simp

example : Fifo.run {} [.insert 5 0, .insert 7 0, .insert 5 0, .pop, .eraseH (0, 5), .empty, .pop]
    = [.ins (0, 5) true, .ins (1, 7) true, .ins (0, 5) false, .key 7, .unit, .bool true, .ub] := by decide

/-- **C50**: for every strict weak order and every sequence of calls, the answers of the priority
queue are those of the specification: `top`/`pop` give a present key of minimal current priority,
`insert` of a present key changes its priority and reports "not new", `erase` removes exactly
that key; undefined behaviour occurs exactly for `top`/`pop` on the empty queue and dead handles. -/
theorem C50_pq_refines {lt : P → P → Bool} (hw : StrictWeak lt) (ops : List (Op P)) :
    Run lt {} ops (Pq.run lt {} ops) := by
  apply pq_run hw
  constructor <;> simp

example : StrictWeak (fun a b : Nat => decide (a / 10 < b / 10)) :=
  ⟨by simp, by intro a b c; simp; omega, by intro a b c; simp; omega⟩

example : Pq.run (fun a b : Nat => decide (a / 10 < b / 10)) {}
    [.insert 5 30, .insert 7 20, .insert 5 12, .top, .insert 5 19, .pop, .pop, .pop]
    = [.ins (0, 5) true, .ins (1, 7) true, .ins (0, 5) false, .key 5, .ins (0, 5) false, .key 5, .key 7, .ub] := by
  decide

end Foxxll.AddrQ
