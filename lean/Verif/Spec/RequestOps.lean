import Verif.Model.RequestOps
/-
Notions for the properties of the operations on many requests.
-/
namespace Foxxll.ReqOps

/-- States a request can be in: in its queue, being served, completed, or canceled. -/
def Req.Valid (q : Req) : Prop :=
  (q.queued = true → q.st = .op ∧ q.served = false ∧ q.canceled = false) ∧
  (q.canceled = true → q.st = .ready2die ∧ q.served = false ∧ q.queued = false) ∧
  (q.err = true → q.served = true) ∧
  (q.st ≠ .op → q.served = true ∨ q.canceled = true)

/-- `DONE` or later. -/
def Req.completed (q : Req) : Prop := q.st ≠ .op

/-- Every thread is finished with it, and the transfer (if any) succeeded. -/
def Req.good (q : Req) : Prop := q.st = .ready2die ∧ q.err = false

/-- The call begins at `p` with the requests in any states. -/
def Begin (s : St) (p : Pc) : Prop := s.pc = p ∧ ∀ r, (s.req r).Valid

end Foxxll.ReqOps
