/-
Auxiliary lemmas for the theorems of `Verif.Props.BufWriter`.
-/
import Verif.Proofs.BufWriter
import Verif.Spec.BufWriter

namespace Foxxll.BufWriter

variable {α : Type}

theorem legal1_legal (s : St α) (op : Op α) (h : Legal1 s op) : Legal s op := by
  cases op <;> simp_all [Legal, Legal1]

theorem stuck {n wbs : Nat} {s : St α} (hpc : s.pc = .getting) (hf : s.free = []) (hb : s.busy = [])
    (hr : ∀ b, s.reqs b = none) (s' : St α) : ¬ Internal n wbs s s' := by
  intro hint
  cases hint with
  | work p c hs =>
    cases p with
    | none => simp [step, work, pollStage, takeStage, hpc, hf, hb] at hs
    | some i => simp [step, work, pollStage, hpc, hb] at hs
  | done b hs => simp [step, hr] at hs

end Foxxll.BufWriter
