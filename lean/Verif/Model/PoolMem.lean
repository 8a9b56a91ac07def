/-
Model of `read_write_pool` with `write_pool` and `prefetch_pool` (/repo/foxxll/mng/read_write_pool.hpp, write_pool.hpp, prefetch_pool.hpp) as owners of
memory: several pools, their construction, `swap`, destruction, and all calls when the memory is exhausted at any allocation.
In each call `m : Mem` is the number of allocations that succeed (`none`: all do): a `block_type`, a pool object, a list or hash table node, or a request.
Simplifications: submission of a request is one allocation, and without it there is no request; requests do not fail (that is PoolFail);
a call that waits takes place when the request it waits for is completed (`blocked` before); the pool sizes are below 2^63; `wait_any` allocates nothing.
-/

namespace Foxxll.PoolMem

/-- Entry of `write_pool::busy_blocks` (write_pool.hpp:47-59); `bid = none`: invalidated (write_pool.hpp:143). -/
structure WB where
  blk : Nat
  bid : Option Nat
  req : Nat
deriving DecidableEq, Repr

/-- Entry of `prefetch_pool::busy_blocks` (prefetch_pool.hpp:64-65); `rd`: the request is a read (prefetch_pool.hpp:252). -/
structure PB where
  bid : Nat
  blk : Nat
  req : Nat
  rd : Bool
deriving DecidableEq, Repr

/-- A `read_write_pool` (read_write_pool.hpp:42-44): `free_blocks` and `busy_blocks` of its write pool (write_pool.hpp:65-67), and `free_blocks`, `busy_blocks` and
`free_blocks_size` of its prefetch pool (prefetch_pool.hpp:70-76). -/
structure Pool where
  wfree : List Nat
  wbusy : List WB
  pfree : List Nat
  pbusy : List PB
  pfs : Nat
deriving DecidableEq, Repr

/-- The rest: the blocks the client has, with the request it was given for them (read_write_pool.hpp:163-166); the blocks allocated by `new block_type`; the next names of
blocks and requests; the requests that are not completed with their blocks. -/
structure Env where
  client : List (Nat × Option Nat)
  heap : List Nat
  nblk : Nat
  nreq : Nat
  pend : List (Nat × Nat)
deriving DecidableEq, Repr

/-- Number of allocations (such as write_pool.hpp:76, 147) that succeed in a call; `none`: no limit. -/
abbrev Mem := Option Nat

/-- An allocation (such as write_pool.hpp:76, 147): `none` if it throws `bad_alloc`, else what is left. -/
def alloc : Mem → Option Mem
  | none => some none
  | some 0 => none
  | some (k + 1) => some (some k)

/-- Outcome of a call of a pool (read_write_pool.hpp:78-211): `threw` with what it left behind; `blocked`: it waits; `ub`: `back()` of an empty list;
`assertFail`: an assertion or `tlx_die_unless`. -/
inductive Out (α : Type)
  | ok (a : α)
  | threw (p : Pool) (e : Env)
  | blocked
  | ub
  | assertFail

/-- Request `r` is not completed: `poll` (request_with_state.cpp:69-76) is false. -/
def Env.pending (e : Env) (r : Nat) : Bool := e.pend.any fun x => x.1 == r

/-- The loops `free_blocks.push_back(new block_type)` (write_pool.hpp:74-78, 182-186, prefetch_pool.hpp:85-86, 365-366): a block and a list node each; the
blocks pushed, and whether there was enough memory.  A block whose node cannot be allocated is in no list. -/
def grow : Nat → Mem → Env → List Nat × Env × Option Mem
  | 0, m, e => ([], e, some m)
  | n + 1, m, e =>
    match alloc m with
    | none => ([], e, none)
    | some m1 =>
      let e1 := { e with heap := e.nblk :: e.heap, nblk := e.nblk + 1 }
      match alloc m1 with
      | none => ([], e1, none)
      | some m2 =>
        let r := grow n m2 e1
        (e.nblk :: r.1, r.2)

/-- `check_all_busy` (write_pool.hpp:235-254): the completed entries go to the free list, each needs a list node.  The entries that stay busy, the blocks pushed,
and whether there was enough memory. -/
def checkBusy (e : Env) : List WB → Mem → List WB × List Nat × Option Mem
  | [], m => ([], [], some m)
  | x :: l, m =>
    if e.pending x.req then
      let r := checkBusy e l m
      (x :: r.1, r.2)
    else
      match alloc m with
      | none => (x :: l, [], none)
      | some m1 =>
        let r := checkBusy e l m1
        (r.1, x.blk :: r.2.1, r.2.2)

/-- `write_pool::steal` (write_pool.hpp:154-173); `c` is the completed request that `wait_any` finds.  Returns the block. -/
def wsteal (p : Pool) (e : Env) (c : Nat) (m : Mem) : Out (Nat × Pool × Mem) :=
  match p.wfree.getLast? with
  | some b => .ok (b, { p with wfree := p.wfree.dropLast }, m)
  | none =>
    if p.wbusy = [] then .assertFail
    else
      match p.wbusy[c]? with
      | none => .blocked
      | some x =>
        if e.pending x.req then .blocked
        else
          match checkBusy e (p.wbusy.eraseIdx c) m with
          | (kept, freed, some m1) => .ok (x.blk, { p with wbusy := kept, wfree := p.wfree ++ freed }, m1)
          | (kept, freed, none) => .threw { p with wbusy := kept, wfree := p.wfree ++ freed } e

/-- `while (++diff <= 0) delete steal();` (write_pool.hpp:191-192). -/
def wshrink : Nat → List Nat → Pool → Env → Mem → Out (Pool × Env)
  | 0, _, p, e, _ => .ok (p, e)
  | n + 1, cs, p, e, m =>
    match wsteal p e (cs.headD 0) m with
    | .ok (b, p1, m1) => wshrink n cs.tail p1 { e with heap := e.heap.erase b } m1
    | .threw p1 e1 => .threw p1 e1
    | .blocked => .blocked
    | .ub => .ub
    | .assertFail => .assertFail

/-- `write_pool::resize` (write_pool.hpp:177-193). -/
def wresize (p : Pool) (e : Env) (n : Nat) (cs : List Nat) (m : Mem) : Out (Pool × Env) :=
  let size := p.wfree.length + p.wbusy.length
  if size < n then
    match grow (n - size) m e with
    | (l, e1, some _) => .ok ({ p with wfree := p.wfree ++ l }, e1)
    | (l, e1, none) => .threw { p with wfree := p.wfree ++ l } e1
  else wshrink (size - n) cs p e m

/-- The loop that makes a prefetch pool smaller (prefetch_pool.hpp:371-377). -/
def pshrink : Nat → Pool → Env → Out (Pool × Env)
  | 0, p, e => .ok (p, e)
  | n + 1, p, e =>
    if p.pfs = 0 then .ok (p, e)
    else
      match p.pfree.getLast? with
      | none => .ub
      | some b => pshrink n { p with pfs := p.pfs - 1, pfree := p.pfree.dropLast } { e with heap := e.heap.erase b }

/-- `prefetch_pool::resize` (prefetch_pool.hpp:359-379): the counter is set before the blocks are allocated (364). -/
def presize (p : Pool) (e : Env) (n : Nat) (m : Mem) : Out (Pool × Env) :=
  let size := p.pfs + p.pbusy.length
  if size < n then
    match grow (n - size) m e with
    | (l, e1, some _) => .ok ({ p with pfs := p.pfs + (n - size), pfree := p.pfree ++ l }, e1)
    | (l, e1, none) => .threw { p with pfs := p.pfs + (n - size), pfree := p.pfree ++ l } e1
  else pshrink (size - n) p e

/-- `has_request` and the search of `steal_request` (write_pool.hpp:195-203, 208-210). -/
def findW (p : Pool) (bid : Nat) : Option WB := p.wbusy.find? fun x => x.bid == some bid

/-- `busy_blocks.find` (prefetch_pool.hpp:246, 265, 324). -/
def findP (p : Pool) (bid : Nat) : Option PB := p.pbusy.find? fun x => x.bid == bid

/-- The rest of `steal_request` (write_pool.hpp:213-216). -/
def dropW (p : Pool) (bid : Nat) : Pool := { p with wbusy := p.wbusy.eraseP fun x => x.bid == some bid }

/-- `busy_blocks.erase` (prefetch_pool.hpp:258, 333). -/
def dropP (p : Pool) (bid : Nat) : Pool := { p with pbusy := p.pbusy.eraseP fun x => x.bid == bid }

/-- A request for block `b` is submitted (typed_block.hpp:307-327). -/
def Env.submit (e : Env) (b : Nat) : Env := { e with nreq := e.nreq + 1, pend := e.pend ++ [(e.nreq, b)] }

/-- `prefetch_pool::hint` with the write pool (prefetch_pool.hpp:212-241): allocations are the node of the free list in `w_pool.add` (230), the request (235), and the
node of the hash table (231, 236). -/
def hint (p : Pool) (e : Env) (bid : Nat) (m : Mem) : Out (Pool × Env) :=
  match findP p bid with
  | some _ => .ok (p, e)
  | none =>
    if p.pfs = 0 then .ok (p, e)
    else
      match p.pfree.getLast? with
      | none => .ub
      | some b =>
        let p1 := { p with pfs := p.pfs - 1, pfree := p.pfree.dropLast }
        match findW p1 bid with
        | some x =>
          let p2 := dropW p1 bid
          match alloc m with
          | none => .threw p2 e
          | some m1 =>
            let p3 := { p2 with wfree := p2.wfree ++ [b] }
            match alloc m1 with
            | none => .threw p3 e
            | some _ => .ok ({ p3 with pbusy := p3.pbusy ++ [⟨bid, x.blk, x.req, false⟩] }, e)
        | none =>
          match alloc m with
          | none => .threw p1 e
          | some m1 =>
            match alloc m1 with
            | none => .threw p1 (e.submit b)
            | some _ => .ok ({ p1 with pbusy := p1.pbusy ++ [⟨bid, b, e.nreq, true⟩] }, e.submit b)

/-- A request is cancelled, if it is still queued (`did`) (request_queue_impl_qwqr.cpp:86-140). -/
def Env.cancel (e : Env) (r : Nat) (did : Bool) : Env := { e with pend := if did then e.pend.filter fun x => x.1 != r else e.pend }

/-- `prefetch_pool::invalidate` (prefetch_pool.hpp:244-260): the counter is set before the list node is allocated (256-257). -/
def invalidate (p : Pool) (e : Env) (bid : Nat) (did : Bool) (m : Mem) : Out (Bool × Pool × Env × Mem) :=
  match findP p bid with
  | none => .ok (false, p, e, m)
  | some x =>
    let e1 := e.cancel x.req (did && x.rd)
    if e1.pending x.req then .blocked
    else
      match alloc m with
      | none => .threw { p with pfs := p.pfs + 1 } e1
      | some m1 => .ok (true, { dropP p bid with pfs := p.pfs + 1, pfree := p.pfree ++ [x.blk] }, e1, m1)

/-- The loop of `write_pool::write` over older writes of the block (write_pool.hpp:134-145); those in `dids` are cancelled. -/
def stale (p : Pool) (bid : Nat) : Pool := { p with wbusy := p.wbusy.map fun x => if x.bid == some bid then { x with bid := none } else x }

/-- The requests cancelled by that loop (write_pool.hpp:140). -/
def cancelOld (p : Pool) (e : Env) (bid : Nat) (dids : List Nat) : Env :=
  { e with pend := e.pend.filter fun x => !((p.wbusy.any fun y => y.bid == some bid && y.req == x.1) && dids.contains x.1) }

/-- The client passes block `b` to a pool (write_pool.hpp:148, 231, prefetch_pool.hpp:146). -/
def Env.drop (e : Env) (b : Nat) : Env := { e with client := e.client.erase (b, none) }

/-- The client gets block `b` with request `r` (read_write_pool.hpp:163-166) or without (read_write_pool.hpp:120-123). -/
def Env.give (e : Env) (b : Nat) (r : Option Nat) : Env := { e with client := e.client ++ [(b, r)] }

/-- `read_write_pool::write` (read_write_pool.hpp:106-116) with `write_pool::write` (write_pool.hpp:131-150): the request (146) and the list node (147), then the copy in the prefetch
pool. -/
def write (p : Pool) (e : Env) (b bid : Nat) (dids : List Nat) (did : Bool) (m : Mem) : Out (Pool × Env) :=
  if p.wbusy.any (fun x => x.bid == some bid && x.blk == b) then .assertFail
  else
    let p1 := stale p bid
    let e1 := cancelOld p e bid dids
    match alloc m with
    | none => .threw p1 e1
    | some m1 =>
      let e2 := e1.submit b
      match alloc m1 with
      | none => .threw p1 e2
      | some m2 =>
        match invalidate { p1 with wbusy := p1.wbusy ++ [⟨b, some bid, e1.nreq⟩] } (e2.drop b) bid did m2 with
        | .ok (true, p3, e3, m3) => hint p3 e3 bid m3
        | .ok (false, p3, e3, _) => .ok (p3, e3)
        | .threw p3 e3 => .threw p3 e3
        | .blocked => .blocked
        | .ub => .ub
        | .assertFail => .assertFail

/-- `prefetch_pool::read` with the write pool (prefetch_pool.hpp:321-351): in the cached case the counter is set before the list node is allocated (329-330). -/
def read (p : Pool) (e : Env) (b bid : Nat) (m : Mem) : Out (Pool × Env) :=
  match findP p bid with
  | some x =>
    match alloc m with
    | none => .threw { p with pfs := p.pfs + 1 } e
    | some _ => .ok ({ dropP p bid with pfs := p.pfs + 1, pfree := p.pfree ++ [b] }, (e.drop b).give x.blk (some x.req))
  | none =>
    match findW p bid with
    | some x =>
      let p1 := dropW p bid
      match alloc m with
      | none => .threw p1 e
      | some _ => .ok ({ p1 with wfree := p1.wfree ++ [b] }, (e.drop b).give x.blk (some x.req))
    | none =>
      match alloc m with
      | none => .threw p e
      | some _ => .ok (p, ((e.submit b).drop b).give b (some e.nreq))

/-- All pools that have been constructed (read_write_pool.hpp:50-55), `none` for those that are gone (read_write_pool.hpp:70-76). -/
structure St where
  pools : List (Option Pool)
  env : Env
deriving DecidableEq, Repr

/-- Calls (read_write_pool.hpp:50-211), and completions of requests (request_with_state.cpp:78-90). -/
inductive Op
  | construct (nw np : Nat) (m : Mem)
  | swap (i j : Nat)
  | destroy (i : Nat)
  | write (i b bid : Nat) (dids : List Nat) (did : Bool) (m : Mem)
  | read (i b bid : Nat) (m : Mem)
  | hint (i bid : Nat) (m : Mem)
  | invalidate (i bid : Nat) (did : Bool) (m : Mem)
  | steal (i c : Nat) (m : Mem)
  | add (i b : Nat) (m : Mem)
  | addPrefetch (i b : Nat) (m : Mem)
  | stealPrefetch (i : Nat)
  | resizeWrite (i n : Nat) (cs : List Nat) (m : Mem)
  | resizePrefetch (i n : Nat) (m : Mem)
  /-- the client allocates a block -/
  | new
  /-- the client deletes a block -/
  | delete (b : Nat)
  /-- the client waits for the request it got with a block -/
  | wait (b : Nat)
  /-- request `r` is completed -/
  | complete (r : Nat)
deriving Repr

/-- Outcome of a step, that is, of a call (read_write_pool.hpp:50-211). -/
inductive Res
  | ok (s : St)
  | threw (s : St)
  | blocked
  | ub
  | assertFail
deriving DecidableEq, Repr

/-- The outcome of a call of pool `i` (read_write_pool.hpp:78-211). -/
def put (s : St) (i : Nat) : Out (Pool × Env) → Res
  | .ok (p, e) => .ok { pools := s.pools.set i (some p), env := e }
  | .threw p e => .threw { pools := s.pools.set i (some p), env := e }
  | .blocked => .blocked
  | .ub => .ub
  | .assertFail => .assertFail

/-- Calls of pool `i`, which exists (read_write_pool.hpp:78-211). -/
def onPool (s : St) (i : Nat) (f : Pool → Env → Out (Pool × Env)) : Res :=
  match s.pools[i]? with
  | some (some p) => put s i (f p s.env)
  | _ => .blocked

/-- The constructor of `read_write_pool` (read_write_pool.hpp:50-55) with those of the pools (write_pool.hpp:72-79, prefetch_pool.hpp:81-87).  If an allocation fails, the members
constructed before are destroyed, but the destructors of the pools, which would delete the blocks, are not called. -/
def construct (s : St) (nw np : Nat) (m : Mem) : Res :=
  match alloc m with
  | none => .threw { s with pools := s.pools ++ [none] }
  | some m1 =>
    match grow nw m1 s.env with
    | (_, e1, none) => .threw { pools := s.pools ++ [none], env := e1 }
    | (lw, e1, some m2) =>
      match alloc m2 with
      | none => .threw { pools := s.pools ++ [none], env := e1 }
      | some m3 =>
        match grow np m3 e1 with
        | (_, e2, none) => .threw { pools := s.pools ++ [none], env := e2 }
        | (lp, e2, some _) => .ok { pools := s.pools ++ [some ⟨lw, [], lp, [], np⟩], env := e2 }

/-- All blocks of a pool (write_pool.hpp:65-67, prefetch_pool.hpp:70-73). -/
def Pool.blocks (p : Pool) : List Nat := p.wfree ++ p.wbusy.map (·.blk) ++ p.pfree ++ p.pbusy.map (·.blk)

/-- `~read_write_pool` (read_write_pool.hpp:70-76) with `~write_pool` (write_pool.hpp:93-120) and `~prefetch_pool` (prefetch_pool.hpp:102-121): waits for the busy blocks, and
deletes all. -/
def destroy (s : St) (i : Nat) : Res :=
  match s.pools[i]? with
  | some (some p) =>
    if p.wbusy.any (fun x => s.env.pending x.req) || p.pbusy.any (fun x => s.env.pending x.req) then .blocked
    else .ok { pools := s.pools.set i none, env := { s.env with heap := s.env.heap.filter fun b => !p.blocks.contains b } }
  | _ => .blocked

/-- `swap` (read_write_pool.hpp:62-67, 220-225, and for the pools themselves prefetch_pool.hpp:94-99, write_pool.hpp:86-90). -/
def swap (s : St) (i j : Nat) : Res :=
  match s.pools[i]?, s.pools[j]? with
  | some (some p), some (some q) => .ok { s with pools := (s.pools.set i (some q)).set j (some p) }
  | _, _ => .blocked

/-- One step (read_write_pool.hpp:50-211).  The destruction of a block with a request under way shows when the request is completed. -/
def step (s : St) : Op → Res
  | .construct nw np m => construct s nw np m
  | .swap i j => swap s i j
  | .destroy i => destroy s i
  | .write i b bid dids did m => onPool s i fun p e => write p e b bid dids did m
  | .read i b bid m => onPool s i fun p e => read p e b bid m
  | .hint i bid m => onPool s i fun p e => hint p e bid m
  | .invalidate i bid did m => onPool s i fun p e =>
      match invalidate p e bid did m with
      | .ok (_, p1, e1, _) => .ok (p1, e1)
      | .threw p1 e1 => .threw p1 e1
      | .blocked => .blocked
      | .ub => .ub
      | .assertFail => .assertFail
  | .steal i c m => onPool s i fun p e =>
      match wsteal p e c m with
      | .ok (b, p1, _) => .ok (p1, e.give b none)
      | .threw p1 e1 => .threw p1 e1
      | .blocked => .blocked
      | .ub => .ub
      | .assertFail => .assertFail
  | .add i b m => onPool s i fun p e =>
      match alloc m with
      | none => .threw p e
      | some _ => .ok ({ p with wfree := p.wfree ++ [b] }, e.drop b)
  | .addPrefetch i b m => onPool s i fun p e =>
      match alloc m with
      | none => .threw p e
      | some _ => .ok ({ p with pfree := p.pfree ++ [b], pfs := p.pfs + 1 }, e.drop b)
  | .stealPrefetch i => onPool s i fun p e =>
      match p.pfree.getLast? with
      | none => .assertFail
      | some b => .ok ({ p with pfree := p.pfree.dropLast, pfs := p.pfs - 1 }, e.give b none)
  | .resizeWrite i n cs m => onPool s i fun p e => wresize p e n cs m
  | .resizePrefetch i n m => onPool s i fun p e => presize p e n m
  | .new => .ok { s with env := ({ s.env with heap := s.env.nblk :: s.env.heap, nblk := s.env.nblk + 1 } : Env).give s.env.nblk none }
  | .delete b => .ok { s with env := { s.env.drop b with heap := s.env.heap.erase b } }
  | .wait b =>
    match s.env.client.find? fun x => x.1 == b with
    | some (_, some r) => if s.env.pending r then .blocked else .ok { s with env := ({ s.env with client := s.env.client.erase (b, some r) } : Env).give b none }
    | _ => .blocked
  | .complete r =>
    match s.env.pend.find? fun x => x.1 == r with
    | some (_, b) => if b ∈ s.env.heap then .ok { s with env := { s.env with pend := s.env.pend.filter fun x => x.1 != r } } else .ub
    | none => .blocked

/-- The beginning: no pools, no blocks (before read_write_pool.hpp:50). -/
def init : St := ⟨[], ⟨[], [], 0, 0, []⟩⟩

end Foxxll.PoolMem
