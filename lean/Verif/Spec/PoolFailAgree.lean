import Verif.Model.PoolFail
import Verif.Model.Pools
/-
How the states of the two models of the pools correspond, for `Verif.Props.PoolFailAgree`.
-/
namespace Foxxll.PoolFail

variable {V : Type}

/-- A state of the model with contents, seen as a state of the model with failures in which nothing has failed; `d`: the blocks deleted so far. -/
def view (d : List Nat) (s : Pool.St V) : St :=
  { q := s.q.map fun x => (x.id, x.blk), err := [], nextReq := s.nextReq, nextBlk := s.nextBlk, wfree := s.wfree,
    wbusy := s.wbusy.map fun e => ⟨e.blk, e.req, e.bid⟩, pfree := s.pfree, pfs := s.pfs, pbusy := s.pbusy.map fun e => ⟨e.bid, e.blk, e.req, e.rd⟩,
    uidle := s.uidle, upend := s.upend.map fun e => ⟨e.blk, e.req⟩, deleted := d, leaked := [], dead := false }

/-- Outcomes. -/
def out (d : List Nat) : Pool.Res (Pool.St V) → Out St
  | .ok s => .ok (view d s)
  | .blocked => .blocked
  | .assertFail => .assertFail
  | .die => .die

/-- The calls that are one step in both models, without failures. -/
def same : Pool.Op V → Option Op
  | .alloc => some .alloc
  | .hint bid => some (.hint bid true false)
  | .read blk bid => some (.read blk bid true false)
  | .add blk => some (.add blk)
  | .stealP => some .stealP
  | .addP blk => some (.addP blk)
  | .resizeP n => some (.resizeP n n)
  | .collect i => some (.collect i)
  | .serve r => some (.ev (.finish r))
  | _ => none

/-- The I/O threads serve these requests, one after the other. -/
inductive Serves (ordered : Bool) (s : Pool.St V) : List Nat → Pool.St V → Prop
  | none : Serves ordered s [] s
  | one {rs s1 s2} (r : Nat) : Serves ordered s rs s1 → Pool.step ordered s1 (.serve r) = .ok s2 → Serves ordered s (rs ++ [r]) s2

end Foxxll.PoolFail
