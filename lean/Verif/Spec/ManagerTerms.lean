import Verif.Proofs.Manager2
/-
Terms used in the statements of `Verif.Props.Manager`.
-/

set_option linter.unusedSimpArgs false

namespace Foxxll.Mgr
open Foxxll.Alloc

/-- Histories where every allocation succeeds and all identifiers are `BID<n>` with n > 0. -/
inductive MReachFixed (cfgs : List (Nat × Bool)) : MSys → Prop where
  | init {m} : Manager.create cfgs = .ok m → MReachFixed cfgs ⟨m, [], 0, 0⟩
  | step {s op} : MReachFixed cfgs s → op.Valid s → op.Succeeds s → op.Fixed →
      MReachFixed cfgs (s.step op)

/-- Histories where every allocation succeeds. -/
inductive MReachOk (cfgs : List (Nat × Bool)) : MSys → Prop where
  | init {m} : Manager.create cfgs = .ok m → MReachOk cfgs ⟨m, [], 0, 0⟩
  | step {s op} : MReachOk cfgs s → op.Valid s → op.Succeeds s → MReachOk cfgs (s.step op)

end Foxxll.Mgr
