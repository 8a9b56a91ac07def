/-
Auxiliary lemmas for the theorems of `Verif.Props.Prefetcher`.
-/
import Verif.Proofs.Prefetcher
import Verif.Props.AsyncSchedule
import Verif.Spec.Prefetcher

namespace Foxxll.Prefetch

variable {α : Type}

theorem OrderOk.good {c : Cfg α} (h : OrderOk c) : Good c := ⟨h.1, h.2.1, h.2.2⟩

end Foxxll.Prefetch
