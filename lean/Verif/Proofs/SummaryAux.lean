import Verif.Proofs.SummaryReport
/-
Auxiliary lemmas for the theorems of `Verif.Props.Summary`.
-/
namespace Foxxll.Summary
open Foxxll.Iostats (FileData)

/-- Reads and bytes of a device, for the examples. -/
def dev (d reads bytes : Nat) (time : Int) : FileData := ⟨d, reads, 0, bytes, 0, time, 0⟩

theorem sorts_self {α : Type} {lt : α → α → Bool} {l : List (α × Nat)} (h : l.Pairwise fun a b => lt b.1 a.1 = false) (w : Weak lt l) : Sorts lt l (some l) :=
  ⟨w, List.Perm.refl _, h⟩

theorem pspeed_summary {b : FileData → Nat} {p : Int} (hp : 0 ≤ p) {fs : List FileData} (h : 0 < p → fs.Pairwise fun f g => b f ≤ b g) :
    Summary dbl fs (pspeed b p) (some (summarize dbl (fs.map fun f => (pspeed b p f, f.dev)))) := by
  refine ⟨some _, ⟨?_, List.Perm.refl _, ?_⟩, rfl⟩
  · have := fun (hn : ¬ Weak dbl.lt (fs.map fun f => (pspeed b p f, f.dev))) => summary_files hp (r := none) ⟨none, hn, rfl⟩
    by_cases hw : Weak dbl.lt (fs.map fun f => (pspeed b p f, f.dev))
    · exact hw
    · obtain ⟨k, _, _, e⟩ := this hw
      cases e
  · rw [List.pairwise_map]
    rcases Int.lt_or_eq_of_le hp with q | q
    · refine (h q).imp ?_
      intro f g hfg
      show Dbl.lt (pspeed b p g) (pspeed b p f) = false
      rw [pspeed_lt hp, decide_eq_false_iff_not]; omega
    · rw [List.pairwise_iff_getElem]
      intro i j hi hj _
      show Dbl.lt (pspeed b p fs[j]) (pspeed b p fs[i]) = false
      rw [pspeed_lt hp, decide_eq_false_iff_not]; omega

end Foxxll.Summary
