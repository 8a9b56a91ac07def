import Verif.Proofs.Linuxaio
/-
Terms used in the statements of `Verif.Props.Linuxaio`.
-/
set_option linter.unusedSimpArgs false
set_option linter.unusedVariables false
namespace Foxxll.Aio

/-- No cancellation is confirmed by the kernel, and the destructor starts at a quiet moment (see
`Calm`). -/
def Quiet (s : St) (op : Op) : Prop := NoConfirm s op ∧ Calm s op
/-- Moreover `io_submit` takes whole batches. -/
def Benign (s : St) (op : Op) : Prop := NoConfirm s op ∧ Calm s op ∧ Full s op

/-- No thread is inside a function of the queue. -/
def AtRest (s : St) : Prop :=
  s.post = .wait ∧ s.wt = .wait ∧ s.nsig = 0 ∧ s.canc = [] ∧ s.ncw = 0 ∧ s.kcan = [] ∧ s.dtor = .idle

end Foxxll.Aio
