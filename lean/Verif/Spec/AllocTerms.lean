import Verif.Proofs.Alloc3
/-
Terms used in the statements of `Verif.Props.Alloc`.
-/

namespace Foxxll.Alloc

/-- Free all blocks of `bs`, in that order. -/
def freeAll (s : Sys) (bs : List Block) : Sys := bs.foldl (fun s b => s.step (.free b)) s

/-- Histories in which all blocks have one size `B`. -/
inductive ReachUniform (B cfg : Nat) (ag : Bool) : Sys → Prop where
  | init {d} : Disk.create cfg ag = .ok d → ReachUniform B cfg ag ⟨d, []⟩
  | alloc {s sizes} : ReachUniform B cfg ag s → sizes ≠ [] → (∀ z ∈ sizes, z = B) →
      ReachUniform B cfg ag (s.step (.alloc sizes))
  | free {s b} : ReachUniform B cfg ag s → b ∈ s.live → ReachUniform B cfg ag (s.step (.free b))

end Foxxll.Alloc
