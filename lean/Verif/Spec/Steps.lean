import Verif.Model.AsyncSchedule
/-
How long a consumer takes that reads its blocks through the prefetcher: every disk fetches one block
per step, the consumer needs no time.

The prefetcher (/repo/foxxll/mng/block_prefetcher.hpp:105-158, 172-206) posts the first `m` reads of the
prefetch order and one more read for each block consumed; a disk serves its reads in the order in which they
are posted (request queues: C23).
-/
namespace Foxxll.Sched

/-- The disk of block `i`; blocks without device number share the number `D` (async_schedule.cpp:63-70). -/
def diskOf (disks : List (Option Nat)) (D i : Nat) : Nat :=
  match disks[i]? with
  | some (some d) => d
  | some none => D
  | none => 0

/-- The consumer has consumed all blocks in front of the first one not fetched. -/
def consumed (L : Nat) (done : List Nat) : Nat := ((List.range L).takeWhile fun i => decide (i ∈ done)).length

/-- Posted reads that are not yet served. -/
def pending (order : List Nat) (m : Nat) (done : List Nat) : List Nat :=
  (order.take (consumed order.length done + m)).filter fun b => decide (b ∉ done)

/-- One step: each disk serves the first of its pending reads. -/
def fetchStep (disk : Nat → Nat) (order : List Nat) (m : Nat) (done : List Nat) : List Nat :=
  done ++ (pending order m done).filter fun b => (pending order m done).find? (fun c => disk c == disk b) == some b

/-- The blocks fetched within the first `n` steps. -/
def fetched (disk : Nat → Nat) (order : List Nat) (m : Nat) : Nat → List Nat
  | 0 => []
  | n + 1 => fetchStep disk order m (fetched disk order m n)

/-- The consumer has all blocks after `n` steps. -/
def Finishes (disk : Nat → Nat) (order : List Nat) (m n : Nat) : Prop := ∀ b ∈ order, b ∈ fetched disk order m n

instance (disk : Nat → Nat) (order : List Nat) (m n : Nat) : Decidable (Finishes disk order m n) := by unfold Finishes; infer_instance

/-- Blocks on disk `d` among the last `a` of `L` blocks. -/
def lastOn (disk : Nat → Nat) (L d a : Nat) : Nat := (List.range L).countP fun i => decide (disk i = d ∧ L ≤ i + a)

/-- Queued writing of the reversed sequence with `m` buffers (Hutchinson, Sanders, Vitter): how many blocks of disk `d`
are written after `t` steps, if in each step the buffers are filled up with the next blocks and each of the `n` disks
writes a block whenever it has one. -/
def queued (disk : Nat → Nat) (L n m : Nat) : Nat → Nat → Nat
  | 0, _ => 0
  | t + 1, d => min (queued disk L n m t d + 1) (lastOn disk L d (m + ((List.range n).map (queued disk L n m t)).sum))

/-- The states of `simulate_async_write` at the head of its main loop. -/
inductive Visited (disks : List (Option Nat)) (m D : Nat) (busy0 : Nat → Bool) (choice : Nat → Nat) : Sim → Prop
  | start {s : Sim} : start disks m D busy0 = some s → Visited disks m D busy0 choice s
  | next {s s' : Sim} {cur : Event} {rest : List Event} : Visited disks m D busy0 choice s →
      popMin (choice s.log.length) s.events = some (cur, rest) → iter disks D s cur rest = some s' → Visited disks m D busy0 choice s'

/-- The simulation uses at least `k` buffers as long as there are blocks not yet in a buffer: these are the blocks
from `s.i` on that are not written. -/
def Keeps (disks : List (Option Nat)) (m D : Nat) (busy0 : Nat → Bool) (choice : Nat → Nat) (k : Nat) : Prop :=
  ∀ s, Visited disks m D busy0 choice s → s.i = 0 ∨ s.i + k + s.log.length ≤ disks.length

end Foxxll.Sched
