import Verif.Model.SwapStore
import Verif.Model.SchedEnd
/-
The end of a block scheduler, over the block manager, the queues and the files.

/repo/foxxll/mng/block_scheduler.hpp: `~block_scheduler` (385-411), the destructors of online_lru (659-669), of offline_lfd (1034-1044) and of the
simulation (811-822), and `swappable_block::deinitialize` (214-225).

`Model/SchedEnd.lean` has the effect on the tables; here the blocks are returned to the block manager one after the other (`free_external_block`, 73-77), and the workers
and other clients make steps in between.  After the last command the arrays of internal blocks are deleted (406-410).

Simplifications: those of `Model/SwapStore.lean`; messages (392, 404, 662) are not modelled, and the number of lost blocks is in `Model/SchedEnd.lean`.
-/
namespace Foxxll.SwapStore
open Foxxll

/-- `swappable_block::deinitialize` (block_scheduler.hpp:214-225): the internal block, the tables, and `delete_block` of the external block if there is one. -/
def wipe (c : Ctl) (id : Nat) : Option (Option Nat × Ctl × List Cmd) :=
  (Swap.wipe c id).map fun r => (r.1, r.2, match (c.blocks id).ext with
    | some e => [.delete e]
    | none => [])

/-- The loops of the destructors of the algorithms (block_scheduler.hpp:663-668, 815-821, 1038-1043). -/
def endAlgo : List Nat → Ctl → Option (Ctl × List Cmd)
  | [], c => some ({ c with evict := [] }, [])
  | id :: l, c => (wipe c id).bind fun r =>
      (endAlgo l (match r.1 with
        | some p => Swap.giveBack r.2.1 p
        | none => r.2.1)).map fun t => (t.1, r.2.2 ++ t.2)

/-- The loop of `~block_scheduler` (block_scheduler.hpp:394-400). -/
def endBlocks : List Nat → Ctl → Option (Ctl × List Cmd)
  | [], c => some (c, [])
  | id :: l, c =>
    if (c.blocks id).isAcquired then endBlocks l c
    else (wipe c id).bind fun r => (endBlocks l r.2.1).map fun t => (t.1, r.2.2 ++ t.2)

/-- `~block_scheduler` (block_scheduler.hpp:385-411): the tables and the commands. -/
def destroy (c : Ctl) : Option (Ctl × List Cmd) :=
  (endAlgo ((Swap.drain c.mode c.evict.length c.evict).map (·.2)) c).bind fun r =>
    (if r.1.freeIds.length ≠ r.1.n then endBlocks (List.range r.1.n) r.1 else some (r.1, [])).map fun t => (t.1, r.2 ++ t.2)

/-- The destructor begins (block_scheduler.hpp:385-388); its commands are events `cmd` of `Sys.step`. -/
def Sys.destroy (s : Sys) : Out :=
  match s.cur with
  | some _ => .no
  | none =>
    match SwapStore.destroy s.c with
    | none => .bad
    | some (c, l) => .ok { s with c := c, todo := l }

end Foxxll.SwapStore
