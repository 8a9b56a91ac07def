import Verif.Model.ManagerLife
import Verif.Spec.Alloc64
/-
Notions for property C152.
-/
namespace Foxxll.ManagerLife
open Foxxll.Alloc Foxxll.Alloc64

/-- Nothing goes wrong with a disk. -/
def Fine (x : Cfg × Ev) : Prop := x.2.opens = true ∧ x.2.queue = true ∧ x.2.mem = true ∧ ∀ n, x.2.can n = true

/-- The disks of a manager and what users own on them, after a construction from `sizes` and any operations on any disks, with any failures of `set_size`. -/
inductive Used (sizes : Nat → Nat) (cfgs : List Cfg) : List Sys64 → Prop
  | start {w l w' ds} : w.sizes = sizes → l.map Prod.fst = cfgs → construct w l = (w', .ok ds) → Used sizes cfgs (ds.map fun d => ⟨d, []⟩)
  | alloc {ss i s can zs} : Used sizes cfgs ss → ss[i]? = some s → Valid64 s (.alloc zs) → s.d.disk.diskBytes + zs.sum < 2 ^ 64 →
      Used sizes cfgs (ss.set i (s.step can (.alloc zs)))
  | free {ss i s can b} : Used sizes cfgs ss → ss[i]? = some s → b ∈ s.live → Used sizes cfgs (ss.set i (s.step can (.free b)))

/-- The size that the file of a disk must have after the life of a manager: the configured one. -/
def Restored (cfgs : List Cfg) (w : World) : Prop := ∀ (i : Nat) c, cfgs[i]? = some c → w.sizes i = c.size

/-- Several attempts that throw. -/
inductive Attempts (cfgs : List Cfg) : World → World → Prop
  | none {w} : Attempts cfgs w w
  | more {w w1 w2 l x} : Attempts cfgs w w1 → l.map Prod.fst = cfgs → construct w1 l = (w2, .error x) → Attempts cfgs w w2

end Foxxll.ManagerLife
