/-
The same state in the models of the pools in Model/Pools.lean (contents of blocks, one pool) and Model/PoolMem.lean (owners of blocks, several pools).
-/
import Verif.Model.Pools
import Verif.Spec.PoolMem

namespace Foxxll.PoolMem

variable {V : Type}

/-- Entries of the write pool. -/
def cw (x : Pool.WEntry) : WB := ⟨x.blk, x.bid, x.req⟩

/-- Entries of the prefetch pool. -/
def cp (x : Pool.PEntry) : PB := ⟨x.bid, x.blk, x.req, x.rd⟩

/-- Both models are in the same state: lists, counter, requests under way and the name of the next request. -/
structure Agree (s : Pool.St V) (p : Pool) (e : Env) : Prop where
  wfree : p.wfree = s.wfree
  wbusy : p.wbusy = s.wbusy.map cw
  pfree : p.pfree = s.pfree
  pbusy : p.pbusy = s.pbusy.map cp
  pfs : p.pfs = s.pfs
  pend : e.pend = s.q.map fun x => (x.id, x.blk)
  nreq : e.nreq = s.nextReq

end Foxxll.PoolMem
