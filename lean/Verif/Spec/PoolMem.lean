/-
Owners of the blocks, rules for clients, and histories of pools with and without exhausted memory.
-/
import Verif.Model.PoolMem

namespace Foxxll.PoolMem

/-- All blocks that somebody owns: those in the lists of the pools, and those of the client. -/
def St.places (s : St) : List Nat := (s.pools.flatMap fun o => (o.map Pool.blocks).getD []) ++ s.env.client.map (·.1)

/-- Number of blocks that are allocated, but lost. -/
def St.lost (s : St) : Nat := s.env.heap.length - s.places.length

/-- Clients pass only blocks that they have and that are not in use by a request they were given; likewise for `delete`. -/
def Legal (s : St) : Op → Prop
  | .write _ b _ _ _ _ => (b, none) ∈ s.env.client
  | .read _ b _ _ => (b, none) ∈ s.env.client
  | .add _ b _ => (b, none) ∈ s.env.client
  | .addPrefetch _ b _ => (b, none) ∈ s.env.client
  | .delete b => (b, none) ∈ s.env.client
  | _ => True

/-- The memory for a call; `none`: all allocations succeed. -/
def Op.mem : Op → Mem
  | .construct _ _ m => m
  | .write _ _ _ _ _ m => m
  | .read _ _ _ m => m
  | .hint _ _ m => m
  | .invalidate _ _ _ m => m
  | .steal _ _ m => m
  | .add _ _ m => m
  | .addPrefetch _ _ m => m
  | .resizeWrite _ _ _ m => m
  | .resizePrefetch _ _ m => m
  | _ => none

/-- Blocks allocated by a constructor. -/
def Op.constructs : Op → Option Nat
  | .construct nw np _ => some (nw + np)
  | _ => none

/-- Histories of any number of pools and a client that keeps the rules.  With `oom` memory may be exhausted in calls of the pools, and the client goes on. -/
inductive Reach (oom : Bool) : St → Prop
  | start : Reach oom init
  | next {s s'} (op : Op) : Reach oom s → Legal s op → step s op = .ok s' → Reach oom s'
  | threw {s s'} (op : Op) : oom = true → Reach oom s → Legal s op → step s op = .threw s' → Reach oom s'

end Foxxll.PoolMem
