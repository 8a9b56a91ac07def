import Verif.Model.Ahead
import Verif.Spec.BlockScheduler

/-
Model of the block scheduler in simulation mode, with its real blocks, and of the end of a block scheduler
(/repo/foxxll/mng/block_scheduler.hpp): the destructors of `block_scheduler` and of the algorithms.

The stack of evictable blocks of the simulation is `evict`, top first.  The arrays of internal blocks (406-410) are not
modelled; all of them are deleted.  Numbers of internal blocks are below 2^63.
-/
namespace Foxxll.Swap

variable {D : Type}

/-- The switch to simulation (block_scheduler.hpp:787-794): the evictable blocks are pushed on a stack in the order in which the
algorithm before gives them. -/
def toSim (s : St D) : St D := { s with mode := .lru, evict := (drain s.mode s.evict.length s.evict).reverse.map fun x => (0, x.2) }

/-- `swappable_blocks_resize` of the simulation (block_scheduler.hpp:889-892). -/
def Sim.resize (m : Sim) (old new : Nat) : Sim := { m with counts := fun j => if old ≤ j ∧ j < new then 0 else m.counts j }

/-- A call in simulation mode (block_scheduler.hpp:834-905, with 465-490 and 519-535).  References from `acquire` are to
the dummy block; `write` is a change of the dummy block.  `none`: an index beyond the end of a vector. -/
def simStep (E : Env D) (s : St D) (m : Sim) : Op D → Option (Res D × St D × Sim)
  | .acquire id u => if s.n ≤ id then none else some (.unit, s, m.acquire id u)
  | .write _ _ => some (.unit, s, m)
  | .release id dirty _ => if s.n ≤ id then none else some (.unit, s, m.release id dirty)
  | .deinit id => if s.n ≤ id then none else some (.unit, s, m.deinit id)
  | .init id _ => if s.n ≤ id then none else some (.unit, s, m.init id)
  | .extract id => if s.n ≤ id then none else some (.ext none, s, m.extract id)
  | .flush => (flush E s).map fun s' => (.unit, s', m)
  | .alloc => some (.id (alloc s).1, (alloc s).2, m.resize s.n (alloc s).2.n)
  | .free id => if s.n ≤ id then none else some (.unit, { s with freeIds := id :: s.freeIds }, m.deinit id)
  | .client d => some (.ext (some (clientBlock E s d).1), (clientBlock E s d).2, m)
  | .retag _ _ => none

/-- `swappable_block::deinitialize` (block_scheduler.hpp:214-225): the internal block it had, and the state.  `delete_block` makes the
external block available again. -/
def wipe (s : St D) (id : Nat) : Option (Option Nat × St D) :=
  if (s.blocks id).isAcquired then none else some ((s.blocks id).int, s.set id {})

/-- The loops of the destructors of the algorithms (block_scheduler.hpp:663-668, 815-821, 1038-1043, 1684-1689) over the blocks
in the order in which they are popped. -/
def endAlgo : List Nat → St D → Option (St D)
  | [], s => some { s with evict := [] }
  | id :: l, s => (wipe s id).bind fun r =>
      endAlgo l (match r.1 with
        | some p => giveBack r.2 p
        | none => r.2)

/-- The loop of `~block_scheduler` (block_scheduler.hpp:394-400) with `num_freed_internal_blocks`. -/
def endBlocks : List Nat → Nat → St D → Option (Nat × St D)
  | [], k, s => some (k, s)
  | id :: l, k, s =>
    if (s.blocks id).isAcquired then endBlocks l k s
    else (wipe s id).bind fun r => endBlocks l (if r.1.isSome then k + 1 else k) r.2

/-- `~block_scheduler` (block_scheduler.hpp:385-411) with online_lru, offline_lfd or the simulation: `nlost`, and the state with the
external blocks that are still allocated. -/
def destroy (s : St D) : Option (Int × St D) :=
  (endAlgo ((drain s.mode s.evict.length s.evict).map (·.2)) s).bind fun s1 =>
    (if s1.freeIds.length ≠ s1.n then endBlocks (List.range s1.n) 0 s1 else some (0, s1)).map fun r =>
      (((s1.max - s1.remaining : Nat) : Int) - ((s1.free.length + r.1 : Nat) : Int), r.2)

end Foxxll.Swap

namespace Foxxll.Ahead

variable {D : Type}

/-- `~block_scheduler` with offline_lru_prefetching (block_scheduler.hpp:1679-1690, 385-411): `deinit`, then the free evictable blocks
in increasing order, as in the switch to another algorithm (`toOnline`). -/
def destroy (s : St D) : Option (Int × Swap.St D) := (toOnline s).bind Swap.destroy

end Foxxll.Ahead
