/-
User's view of the block manager: which blocks they own.
-/
import Verif.Model.Manager
import Verif.Spec.Alloc

namespace Foxxll.Mgr
open Foxxll.Alloc

/-- The block's byte range on its disk. -/
def Bid.block (b : Bid) : Block := ⟨b.off, b.size⟩

/-- The byte ranges of those block identifiers that lie on disk `d`. -/
def onDisk (d : Nat) (bs : List Bid) : List Block :=
  (bs.filter (fun b => b.storage = .managed d)).map Bid.block

/-- Manager together with the user's live block identifiers and the user's own
statistics: bytes ever allocated and the peak of the bytes owned. -/
structure MSys where
  mgr : Manager
  live : List Bid
  ever : Nat
  peak : Nat

/-- sum of sizes of block identifiers -/
def bidBytes (bs : List Bid) : Nat := (bs.map Bid.size).sum

inductive MOp where
  | new (f : Nat → Nat) (offset : Nat) (out : List Bid)
  | delete (b : Bid)

/-- API preconditions: the functor names existing disks, sizes are positive and
agree with the template parameter if that is not 0; only owned blocks are deleted. -/
def MOp.Valid (s : MSys) : MOp → Prop
  | .new f o out => (∀ i, o ≤ i → i < o + out.length → f i < s.mgr.disks.length) ∧
      ∀ b ∈ out, 0 < b.size ∧ (b.tmpl = 0 ∨ b.size = b.tmpl)
  | .delete b => b ∈ s.live

/-- Effect on manager and user's bookkeeping.  After a failed allocation the user
owns nothing new. -/
def MSys.step (s : MSys) : MOp → MSys
  | .new f o out =>
    match s.mgr.newBlocks f o out with
    | (m, out', .ok ()) =>
      let live := out' ++ s.live
      ⟨m, live, s.ever + bidBytes out', max s.peak (bidBytes live)⟩
    | (m, _, .error _) => { s with mgr := m }
  | .delete b =>
    match s.mgr.deleteBlock b with
    | .ok m => { s with mgr := m, live := s.live.erase b }
    | .error _ => s

/-- Valid histories. -/
inductive MReach (cfgs : List (Nat × Bool)) : MSys → Prop where
  | init {m} : Manager.create cfgs = .ok m → MReach cfgs ⟨m, [], 0, 0⟩
  | step {s op} : MReach cfgs s → op.Valid s → MReach cfgs (s.step op)

/-- The allocation `op` succeeds in `s` (always true for deletions). -/
def MOp.Succeeds (s : MSys) : MOp → Prop
  | .new f o out => (s.mgr.newBlocks f o out).2.2 = .ok ()
  | .delete _ => True

/-- All block identifiers of the operation have template parameter > 0. -/
def MOp.Fixed : MOp → Prop
  | .new _ _ out => ∀ b ∈ out, b.tmpl ≠ 0
  | .delete _ => True

/-! Independent description of the placement rule (C08). -/

/-- Bytes assigned to disk `d` by the placements made so far. -/
def assignedBytes (d : Nat) (asg sizes : List Nat) : Nat :=
  ((asg.zip sizes).filter (fun p => p.1 = d)).map Prod.snd |>.sum

/-- Disk `d` can take `size` more bytes in addition to `already` assigned ones. -/
def HasRoom (disks : List Disk) (already : Nat → Nat) (size d : Nat) : Prop :=
  ∃ dk, disks[d]? = some dk ∧ (dk.autogrow = true ∨ already d + size ≤ dk.freeBytes)

/-- The documented rule for one block. -/
def Placed (disks : List Disk) (already : Nat → Nat) (want size d : Nat) : Prop :=
  (HasRoom disks already size want ∧ d = want) ∨
  (¬ HasRoom disks already size want ∧ HasRoom disks already size d ∧
    ∃ adv, 0 < adv ∧ adv < disks.length ∧ d = (want + adv) % disks.length ∧
      ∀ a, 0 < a → a < adv → ¬ HasRoom disks already size ((want + a) % disks.length)) ∨
  ((∀ d', d' < disks.length → ¬ HasRoom disks already size d') ∧ d = want)

end Foxxll.Mgr
