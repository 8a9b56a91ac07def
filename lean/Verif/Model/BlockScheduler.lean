/-
Model of swappable blocks and the block scheduler (/repo/foxxll/mng/block_scheduler.hpp): the
algorithms online_lru, simulation and offline_lfd.  offline_lru_prefetching is modelled in Ahead.lean.

I/O is synchronous and does not fail.  `none` is a failed `assert` or undefined behaviour.  Internal
blocks are numbered in order of allocation.  `addressable_fifo_queue` and
`addressable_priority_queue` are lists (their implementations are modelled in AddrQueue, C49 and C50).
-/
namespace Foxxll.Swap

/-- `swappable_block` (block_scheduler.hpp:51-66, 81-82). -/
structure SB where
  ext : Option Nat := none
  int : Option Nat := none
  dirty : Bool := false
  refs : Nat := 0
  deriving DecidableEq

/-- block_scheduler.hpp:87-88 -/
def SB.isInternal (b : SB) : Bool := b.int.isSome
/-- block_scheduler.hpp:99-100 -/
def SB.isExternal (b : SB) : Bool := b.ext.isSome && !b.dirty
/-- block_scheduler.hpp:103-104 -/
def SB.isAcquired (b : SB) : Bool := decide (0 < b.refs)
/-- block_scheduler.hpp:107-108 -/
def SB.isEvictable (b : SB) : Bool := !b.isAcquired && b.isInternal
/-- block_scheduler.hpp:111-112 -/
def SB.isInitialized (b : SB) : Bool := b.isInternal || b.isExternal

/-- The algorithm in use (block_scheduler.hpp:612, 908). -/
inductive Mode
  | lru
  | lfd
  deriving DecidableEq

/-- What comes from outside: `pick live` is the block `block_manager::new_block` gives if the blocks
`live` are in use; `fill` is `fill_default` (block_scheduler.hpp:153), a function of the contents before. -/
structure Env (D : Type) where
  pick : List Nat → Nat
  fill : D → D

/-- `block_scheduler` (block_scheduler.hpp:321-333) with its algorithm.  `next` counts the internal blocks allocated so far,
`evict` holds the evictable blocks of the algorithm (block_scheduler.hpp:628, 957) as (priority, id) in order of insertion.
`mem`, `disk`: contents of internal and external blocks.  `held`: external blocks of the client. -/
structure St (D : Type) where
  max : Nat
  remaining : Nat
  next : Nat := 0
  free : List Nat := []
  n : Nat := 0
  blocks : Nat → SB := fun _ => {}
  freeIds : List Nat := []
  mode : Mode := .lru
  evict : List (Nat × Nat) := []
  mem : Nat → D
  disk : Nat → D
  held : List Nat := []

variable {D : Type}

/-- Assignment to `swappable_blocks[id]` (block_scheduler.hpp:328). -/
def St.set (s : St D) (id : Nat) (b : SB) : St D := { s with blocks := fun j => if j = id then b else s.blocks j }

/-- External blocks in use (`external_data`, block_scheduler.hpp:63, and those of the client). -/
def St.live (s : St D) : List Nat := (List.range s.n).filterMap (fun id => (s.blocks id).ext) ++ s.held

/-- `div_ceil(max_internal_memory, sizeof(internal_block_type))` (block_scheduler.hpp:372). -/
def maxBlocks (memory size : Nat) : Nat := memory / size + (if memory % size = 0 then 0 else 1)

/-- Constructor (block_scheduler.hpp:371-378); `mem` and `disk` are arbitrary. -/
def init (memory size : Nat) (mem disk : Nat → D) : St D :=
  { max := maxBlocks memory size, remaining := maxBlocks memory size, mem := mem, disk := disk }

/-- block_scheduler.hpp:539 -/
def allocAtOnce : Nat := 128

/-- `block_scheduler::get_free_internal_block` (block_scheduler.hpp:337-362). -/
def getFreeBs (s : St D) : Option Nat × St D :=
  match s.free with
  | p :: rest => (some p, { s with free := rest })
  | [] =>
    if 0 < s.remaining then
      let k := min allocAtOnce s.remaining
      (some s.next, { s with remaining := s.remaining - k, next := s.next + k, free := (List.range' (s.next + 1) (k - 1)) })
    else (none, s)

/-- `clean_sync` (block_scheduler.hpp:172-191) of block `id`. -/
def clean (E : Env D) (s : St D) (id : Nat) : Option (St D) :=
  let b := s.blocks id
  if b.dirty then
    let e := b.ext.getD (E.pick s.live)
    match b.int with
    | none => none
    | some p => some { (s.set id { b with ext := some e, dirty := false }) with disk := fun j => if j = e then s.mem p else s.disk j }
  else some s

/-- `detach_internal_block` (block_scheduler.hpp:202-209): the internal block and the new state. -/
def detach (E : Env D) (s : St D) (id : Nat) : Option (Nat × St D) :=
  if (s.blocks id).isEvictable then
    (clean E s id).bind fun s1 =>
      match (s1.blocks id).int with
      | none => none
      | some p => some (p, s1.set id { s1.blocks id with int := none })
  else none

/-- `addressable_priority_queue::pop` with `priority::operator <` (block_scheduler.hpp:952-953): largest priority, then
smallest id. -/
def better (x y : Nat × Nat) : Bool := decide (y.1 < x.1) || (decide (x.1 = y.1) && decide (x.2 ≤ y.2))

/-- The first element in the order of the priority queue (addressable_queues.hpp:187-199). -/
def best : Nat × Nat → List (Nat × Nat) → Nat × Nat
  | x, [] => x
  | x, y :: l => if better x y then best x l else best y l

/-- `evictable_blocks.pop()`: the oldest (addressable_queues.hpp:98-105) or the first in order of
priority (block_scheduler.hpp:192-199). -/
def popEvict (m : Mode) (l : List (Nat × Nat)) : Option ((Nat × Nat) × List (Nat × Nat)) :=
  match l with
  | [] => none
  | x :: rest =>
    match m with
    | .lru => some (x, rest)
    | .lfd => some (best x rest, (x :: rest).erase (best x rest))

/-- `evictable_blocks.erase(sbid)` (block_scheduler.hpp:689, 735, 750, 1064, 1124, 1139). -/
def eraseEvict (l : List (Nat × Nat)) (id : Nat) : List (Nat × Nat) := l.filter (fun x => x.2 != id)

/-- `evictable_blocks.insert(sbid, priority)`; a block already in is moved (block_scheduler.hpp:724, 1112). -/
def insertEvict (l : List (Nat × Nat)) (p id : Nat) : List (Nat × Nat) := eraseEvict l id ++ [(p, id)]

/-- `get_free_internal_block` of the algorithms (block_scheduler.hpp:630-638, 968-976). -/
def getFree (E : Env D) (s : St D) : Option (Nat × St D) :=
  match getFreeBs s with
  | (some p, s1) => some (p, s1)
  | (none, s1) =>
    match popEvict s1.mode s1.evict with
    | none => none
    | some (x, rest) => detach E { s1 with evict := rest } x.2

/-- `return_free_internal_block` (block_scheduler.hpp:365-366). -/
def giveBack (s : St D) (p : Nat) : St D := { s with free := p :: s.free }

/-- block_scheduler.hpp:692-712: block `id` gets an internal block `p`; the contents are read or filled in. -/
def bringIn (E : Env D) (s : St D) (id : Nat) (uninit : Bool) (p : Nat) : St D :=
  let b := s.blocks id
  let d := if uninit then s.mem p
    else if b.isInitialized then (b.ext.map s.disk).getD (s.mem p)
    else E.fill (s.mem p)
  let dirty := if b.isInitialized && !uninit then false else b.dirty
  { (s.set id { b with int := some p, refs := b.refs + 1, dirty := dirty }) with mem := fun j => if j = p then d else s.mem j }

/-- `acquire` (block_scheduler.hpp:677-713, 1052-1088); the result is the number of the internal block. -/
def acquire (E : Env D) (s : St D) (id : Nat) (uninit : Bool) : Option (Nat × St D) :=
  if s.n ≤ id then none
  else
    let b := s.blocks id
    match b.int with
    | some p =>
      let s1 := if b.isAcquired then s else { s with evict := eraseEvict s.evict id }
      some (p, s1.set id { b with refs := b.refs + 1 })
    | none => (getFree E s).map fun r => (r.1, bringIn E r.2 id uninit r.1)

/-- The end of `release` (block_scheduler.hpp:718-728, 1106-1116), with the priority for the queue of lfd. -/
def releaseWith (E : Env D) (s : St D) (id : Nat) (dirty : Bool) (prio : SB → Nat) : Option (St D) :=
  if s.n ≤ id then none
  else
    let b := s.blocks id
    if b.isAcquired then
      let b1 := { b with dirty := dirty || b.dirty, refs := b.refs - 1 }
      let s1 := s.set id b1
      if b1.isAcquired then some s1
      else if b1.dirty || b1.isExternal then some { s1 with evict := insertEvict s1.evict (prio b1) id }
      else (detach E s1 id).map fun r => giveBack r.2 r.1
    else none

/-- `release` of online_lru (block_scheduler.hpp:715-729). -/
def release (E : Env D) (s : St D) (id : Nat) (dirty : Bool) : Option (St D) := releaseWith E s id dirty (fun _ => 0)

/-- `deinitialize` (block_scheduler.hpp:731-738, 1120-1127, 214-225).  `delete_block` makes the external block available again. -/
def deinit (s : St D) (id : Nat) : Option (St D) :=
  if s.n ≤ id then none
  else
    let b := s.blocks id
    if b.isAcquired then none
    else
      let s1 := if b.isEvictable then { s with evict := eraseEvict s.evict id } else s
      let s2 := s1.set id {}
      match b.int with
      | some p => some (giveBack s2 p)
      | none => some s2

/-- `initialize` (block_scheduler.hpp:740-744, 1129-1133, 229-233) with an external block of the client, `none` if it is not valid. -/
def initialize_ (s : St D) (id : Nat) (e : Option Nat) : Option (St D) :=
  if s.n ≤ id then none
  else
    let b := s.blocks id
    if b.isInitialized then none
    else some { (s.set id { b with ext := e }) with held := s.held.filter (fun x => some x != e) }

/-- block_scheduler.hpp:749-752, 1138-1141: make a block not internal. -/
def putOut (E : Env D) (s : St D) (id : Nat) : Option (St D) :=
  let b := s.blocks id
  let s1 := if b.isEvictable then { s with evict := eraseEvict s.evict id } else s
  if b.isInternal then (detach E s1 id).map fun r => giveBack r.2 r.1 else some s1

/-- `extract_external_block` (block_scheduler.hpp:746-754, 1135-1143, 237-243): the external block goes to the client. -/
def extract (E : Env D) (s : St D) (id : Nat) : Option (Option Nat × St D) :=
  if s.n ≤ id then none
  else (putOut E s id).map fun s1 =>
    let b := s1.blocks id
    (b.ext, { (s1.set id { b with ext := none }) with held := b.ext.toList ++ s1.held })

/-- `flush` (block_scheduler.hpp:519-535); `fuel` is the number of evictable blocks. -/
def flushAux (E : Env D) : Nat → St D → Option (St D)
  | 0, s => some s
  | k + 1, s =>
    match popEvict s.mode s.evict with
    | none => some s
    | some (x, rest) => (detach E { s with evict := rest } x.2).bind fun r => flushAux E k (giveBack r.2 r.1)

/-- `flush` (block_scheduler.hpp:519-535) -/
def flush (E : Env D) (s : St D) : Option (St D) := flushAux E s.evict.length s

/-- `allocate_swappable_block` (block_scheduler.hpp:465-482): the smallest free identifier, else a new one. -/
def alloc (s : St D) : Nat × St D :=
  match s.freeIds with
  | [] => (s.n, { s with n := s.n + 1, blocks := fun j => if j = s.n then {} else s.blocks j })
  | x :: rest =>
    let m := rest.foldl min x
    (m, { s with freeIds := s.freeIds.erase m })

/-- `free_swappable_block` (block_scheduler.hpp:486-490). -/
def freeBlock (s : St D) (id : Nat) : Option (St D) := (deinit s id).map fun s1 => { s1 with freeIds := id :: s1.freeIds }

/-- The client modifies the contents of a block it has acquired, through the reference from
`acquire` or `get_internal_block` (block_scheduler.hpp:146-150). -/
def write (s : St D) (id : Nat) (d : D) : Option (St D) :=
  if s.n ≤ id then none
  else if (s.blocks id).isAcquired then (s.blocks id).int.map fun p => { s with mem := fun j => if j = p then d else s.mem j }
  else none

/-- The client writes data to an external block of its own, for `initialize` (the argument of block_scheduler.hpp:437-438). -/
def clientBlock (E : Env D) (s : St D) (d : D) : Nat × St D :=
  let e := E.pick s.live
  (e, { s with held := e :: s.held, disk := fun j => if j = e then d else s.disk j })

/-! ### Simulation -/

/-- `block_scheduler_operation` (block_scheduler.hpp:292-301). -/
inductive POp
  | acquire
  | acquireUninit
  | release
  | releaseDirty
  | deinit
  | init
  | extract
  deriving DecidableEq

/-- `prediction_sequence_element` (block_scheduler.hpp:303-312). -/
structure Elem where
  op : POp
  id : Nat
  time : Nat
  deriving DecidableEq

/-- `block_scheduler_algorithm_simulation` (block_scheduler.hpp:777-782); `seq` is `prediction_sequence` (block_scheduler.hpp:558). -/
structure Sim where
  counts : Nat → Nat
  time : Nat := 0
  lastRel : Bool := false
  seq : List Elem := []

/-- `reference_counts[id] = c` (block_scheduler.hpp:866, 874, 882). -/
def Sim.setCount (m : Sim) (id c : Nat) : Sim := { m with counts := fun j => if j = id then c else m.counts j }

/-- `prediction_sequence.push_back` (block_scheduler.hpp:839-846). -/
def Sim.push (m : Sim) (op : POp) (id : Nat) : Sim := { m with seq := m.seq ++ [{ op := op, id := id, time := m.time }] }

/-- `init` (block_scheduler.hpp:787-794): the counts; the evictable blocks are taken over. -/
def Sim.start (s : St D) : Sim := { counts := fun id => if id < s.n ∧ (s.blocks id).isInitialized then 1 else 0 }

/-- block_scheduler.hpp:834-847 -/
def Sim.acquire (m : Sim) (id : Nat) (uninit : Bool) : Sim :=
  ({ m.setCount id ((m.counts id + 1) % 2 ^ 64) with lastRel := false }).push (if uninit then .acquireUninit else .acquire) id

/-- block_scheduler.hpp:849-862 -/
def Sim.release (m : Sim) (id : Nat) (dirty : Bool) : Sim :=
  ({ m.setCount id (((m.counts id + 2 ^ 64 - 1) % 2 ^ 64 + (if dirty then 1 else 0)) % 2 ^ 64) with
      time := m.time + (if m.lastRel then 0 else 1), lastRel := true }).push (if dirty then .releaseDirty else .release) id

/-- block_scheduler.hpp:864-870 -/
def Sim.deinit (m : Sim) (id : Nat) : Sim := (m.setCount id 0).push .deinit id

/-- block_scheduler.hpp:872-878 -/
def Sim.init (m : Sim) (id : Nat) : Sim := (m.setCount id 1).push .init id

/-- block_scheduler.hpp:880-887 -/
def Sim.extract (m : Sim) (id : Nat) : Sim := (m.setCount id 0).push .extract id

/-- block_scheduler.hpp:894-897 -/
def Sim.isInitialized (m : Sim) (id : Nat) : Bool := decide (0 < m.counts id)

/-- block_scheduler.hpp:899-900 -/
def Sim.timestep (m : Sim) : Sim := { m with time := m.time + 1 }

/-! ### Longest forward distance -/

/-- `std::pair<bool, time_type>` (block_scheduler.hpp:958-966): acquired next and when, or else the kind of the next operation. -/
abbrev Use := Bool × Nat

/-- Loop of `init` (block_scheduler.hpp:983-1012), from the back of the prediction sequence: the next use of every block and
`next_use` of the releases. -/
def uses : List Elem → (Nat → Use) × List Use
  | [] => (fun _ => (false, 1), [])
  | e :: l =>
    let r := uses l
    match e.op with
    | .acquire | .acquireUninit => (fun j => if j = e.id then (true, e.time) else r.1 j, r.2)
    | .release | .releaseDirty => (r.1, r.1 e.id :: r.2)
    | .deinit => (fun j => if j = e.id then (false, 0) else r.1 j, r.2)
    | .init => (fun j => if j = e.id then (false, 3) else r.1 j, r.2)
    | .extract => (fun j => if j = e.id then (false, 2) else r.1 j, r.2)

/-- `priority` (block_scheduler.hpp:930-949) in 64 bit arithmetic. -/
def prio (t : Use) (b : SB) : Nat :=
  if t.1 then (t.2 * 4) % 2 ^ 64 + (if b.dirty then 0 else 2) + (if b.ext.isSome then 1 else 0)
  else (2 ^ 64 - 4) + t.2

/-- The algorithm offline_lfd: the scheduler and `next_use` (block_scheduler.hpp:966). -/
structure Lfd (D : Type) where
  st : St D
  nextUse : List Use

/-- Constructor (block_scheduler.hpp:981-1022, 1025-1032) from a recorded sequence. -/
def Lfd.start (s : St D) (seq : List Elem) : Lfd D :=
  { st := { s with mode := .lfd, evict := s.evict.map fun x => (prio ((uses seq).1 x.2) (s.blocks x.2), x.2) }, nextUse := (uses seq).2 }

/-- The evictable blocks in the order in which `evictable_blocks_pop` gives them (block_scheduler.hpp:646-647, 1015-1019). -/
def drain (m : Mode) : Nat → List (Nat × Nat) → List (Nat × Nat)
  | 0, _ => []
  | k + 1, l =>
    match popEvict m l with
    | none => []
    | some (x, rest) => x :: drain m k rest

/-- Switch to online_lru (block_scheduler.hpp:643-648). -/
def toLru (s : St D) : St D := { s with mode := .lru, evict := (drain s.mode s.evict.length s.evict).map fun x => (0, x.2) }

/-- `release` of offline_lfd (block_scheduler.hpp:1090-1118): if the prediction ended, online_lru takes over. -/
def Lfd.release (E : Env D) (f : Lfd D) (id : Nat) (dirty : Bool) : Option (Lfd D) :=
  match f.nextUse with
  | [] => (Swap.release E (toLru f.st) id dirty).map fun s => { st := s, nextUse := [] }
  | u :: rest => (releaseWith E f.st id dirty (prio u)).map fun s => { st := s, nextUse := rest }

end Foxxll.Swap
