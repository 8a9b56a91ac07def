import Verif.Proofs.Prefetcher
import Verif.Props.AsyncSchedule
/-
Terms used in the statements of `Verif.Props.Prefetcher`.
-/

namespace Foxxll.Prefetch

variable {α : Type}

/-- The prefetch order is a permutation of the consumption sequence; the constructor's asserts
hold. -/
def OrderOk (c : Cfg α) : Prop := c.seq.Perm (List.range c.seqLength) ∧ 0 < c.seqLength ∧ 0 < c.bufSize

end Foxxll.Prefetch
