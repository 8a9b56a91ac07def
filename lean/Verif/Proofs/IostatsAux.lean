import Verif.Proofs.Iostats
/-
Auxiliary lemmas for the theorems of `Verif.Props.Iostats`.
-/

namespace Foxxll.Iostats

/-- Two overlapping reads, recorded against time order, the second cancelled. -/
def sampleReqs : Reqs := { start := fun r => if r = 0 then 10 else 7, fin := fun r => if r = 0 then 15 else 14, size := fun r => 100 + r }

def sampleSecs : List Sec :=
  [.file 3 .read (.started 100 10), .par .read true 10, .file 3 .read (.started 101 7), .io true 10,
   .file 3 .read (.canceled 101), .file 3 .read (.finished 15), .file 3 .read (.finished 14)]

theorem sample_history : History sampleReqs (fileSecs 3 .read sampleSecs) { finished := [1, 0], canceled := [1] } :=
  .finish 1 (.finish 0 (.cancel 1 (.start 1 (.start 0 .nil (by simp) (by simp)) (by simp) (by simp)) (by simp) (by simp)) (by simp)) (by simp)

end Foxxll.Iostats
