import Verif.Model.ConfigQuery
import Verif.Model.Strategy
/-
Model of the allocation strategies made by their default constructors (/repo/foxxll/mng/block_alloc_strategy.hpp), which take their range of disks from the configuration,
as used by `block_manager::new_blocks` (/repo/foxxll/mng/block_manager.hpp:183-215), which uses the answer as index of `block_allocators_`.

Random numbers are parameters; `std::random_shuffle` gives some permutation (`shuffle`).  The block manager has the disks of the configuration (no disk is
added after its construction); a disk without space is replaced by another one later (C07), which is left out.  `mem n`: the memory for a vector of `n` numbers is granted.
-/
namespace Foxxll.StrategyConfig
open Foxxll.Config Foxxll.ConfigQuery

/-- The strategies that have a range. -/
inductive Kind
  | striping
  | fullyRandom
  | simpleRandom
  | randomCyclic
  | cyclicDisk
  | cyclicFlash
  deriving DecidableEq

/-- What is not determined by the code: the random numbers, the shuffle, and the memory. -/
structure Rand where
  draw : Nat → Nat
  shuffle : Nat → List Nat
  mem : Nat → Bool

/-- How construction and use end; `on d`: the block is placed on disk `d`. -/
inductive Out
  | on (d : Nat)
  | threw
  | assertFail
  | ub
  deriving DecidableEq

/-- `block_allocators_[disk_id]` (block_manager.hpp:188-190): one allocator for each disk (block_manager.cpp:40-77). -/
def place (c : Cfg) : Option Nat → Out
  | some d => if d < c.disks.length then .on d else .ub
  | none => .ub

/-- A strategy of the range `[b, e)` is made and asked for block `i`: striping (block_alloc_strategy.hpp:48-59), fully_random (75-82), simple_random with `init` in the
constructor (97-117), random_cyclic, whose constructor makes a vector of `diff_` numbers and shuffles it (132-155).  `end - begin` is computed modulo 2^64; a vector of so many
elements cannot exist (`std::length_error`). -/
def useRange (R : Rand) (c : Cfg) (k : Kind) (b e i : Nat) : Out :=
  match k with
  | .striping => place c (Strategy.striping b e i)
  | .fullyRandom => place c (Strategy.fullyRandom b e R.draw i)
  | .simpleRandom => place c (Strategy.simpleRandom b e (R.draw 0) i)
  | .randomCyclic | .cyclicDisk | .cyclicFlash =>
    if e < b then .threw
    else if R.mem (e - b) then place c (Strategy.randomCyclic b e (R.shuffle (e - b)) i) else .threw

/-- The answer to a query of the configuration is used as range. -/
def withRange (k : Nat × Nat → Cfg → Out) : QRes → Out
  | .ok (.range r) c => k r c
  | .ok (.num n) c => k (0, n) c
  | .ok _ _ => .ub
  | .threw _ => .threw
  | .assertFail => .assertFail
  | .ub => .ub

/-- The default constructors (block_alloc_strategy.hpp:51-54, 77, 109-112, 147-150, 167-170, 183-186; the base class `striping` takes `disks_number`), and a
call for block `i`. -/
def use (debug : Bool) (env : Env) (found : Option (Option (List Str))) (R : Rand) (c : Cfg) (k : Kind) (i : Nat) : Out :=
  match k with
  | .cyclicDisk => withRange (fun r c => useRange R c k r.1 r.2 i) (query debug env found c .regularRange)
  | .cyclicFlash => withRange (fun r c => useRange R c k r.1 r.2 i) (query debug env found c .flashRange)
  | _ => withRange (fun r c => useRange R c k r.1 r.2 i) (query debug env found c .disksNumber)

end Foxxll.StrategyConfig
