/-
Model of the block pools when requests fail, when a request cannot be submitted and when memory runs out:
`write_pool` (/repo/foxxll/mng/write_pool.hpp), `prefetch_pool` (/repo/foxxll/mng/prefetch_pool.hpp) and
`read_write_pool` (/repo/foxxll/mng/read_write_pool.hpp), with their destructors and with the methods of
`prefetch_pool` that do without a write pool.

The contents of blocks and the order of the disk queue are left out here (they are in Pools.lean).  Blocks, requests and
block identifiers are numbers; `none` as identifier of a busy entry is a BID whose storage was set to null.  I/O threads
work while the client is inside a method: every method gets lists of events (a request fails, a request is finished) that
happen between its accesses to requests.  Whether `cancel()` comes in time, whether a submission throws ("Request submitted
to not running queue", request_queue_impl_qwqr.cpp:65-66; the constructor of a queue, linuxaio_queue.cpp:55) and how many
`new` succeed are parameters.  Waiters that stay registered after an exception in `wait_any` are in WaitAny.lean (C58).
-/
namespace Foxxll.PoolFail

/-- `write_pool::busy_entry` (write_pool.hpp:47-59). -/
structure WEnt where
  blk : Nat
  req : Nat
  bid : Option Nat
deriving DecidableEq, Repr

/-- An element of `prefetch_pool::busy_blocks` (prefetch_pool.hpp:64-65, 73); `rd` is `req->op() == READ`
(prefetch_pool.hpp:252). -/
structure PEnt where
  bid : Nat
  blk : Nat
  req : Nat
  rd : Bool
deriving DecidableEq, Repr

/-- A block and the request `read` returned with it (prefetch_pool.hpp:301-351). -/
structure UEnt where
  blk : Nat
  req : Nat
deriving DecidableEq, Repr

/-- The members of the two pools (write_pool.hpp:65-67, prefetch_pool.hpp:69-76) and the blocks of the client. -/
structure St where
  /-- requests not finished: number and block -/
  q : List (Nat × Nat)
  /-- requests with an error (request.hpp:56) -/
  err : List Nat
  nextReq : Nat
  nextBlk : Nat
  wfree : List Nat
  wbusy : List WEnt
  pfree : List Nat
  /-- `free_blocks_size` (prefetch_pool.hpp:76) -/
  pfs : Nat
  pbusy : List PEnt
  /-- blocks of the client without and with a request it has not waited for -/
  uidle : List Nat
  upend : List UEnt
  /-- record: blocks given to `delete` -/
  deleted : List Nat
  /-- record: blocks no variable points to any more -/
  leaked : List Nat
  /-- record: the destructors have run -/
  dead : Bool
deriving DecidableEq, Repr

/-- What an I/O thread does to a request: it stores an exception (`error_occured`, request.hpp:106-111, serving_request.cpp:51-58),
it completes the request (request_with_state.cpp:78-90). -/
inductive Ev
  | fail (r : Nat)
  | finish (r : Nat)
deriving DecidableEq, Repr

/-- Outcome of a method. -/
inductive Out (α : Type)
  | ok (a : α)
  /-- left by an exception -/
  | throw (s : St)
  /-- the events do not finish a request the method waits for -/
  | blocked
  /-- a failing `assert` (write_pool.hpp:137, 156, 166) -/
  | assertFail
  /-- `tlx_die_unless` (prefetch_pool.hpp:154) -/
  | die
  /-- `back()` of an empty list (prefetch_pool.hpp:185, 223, 375) -/
  | ub
deriving DecidableEq, Repr

/-- Is the request still being processed?  (request_with_state.cpp:41, 71-75) -/
def pending (s : St) (r : Nat) : Bool := s.q.any (fun x => x.1 == r)

/-- Has the request an error?  (`check_errors`, request.hpp:114-118) -/
def failed (s : St) (r : Nat) : Bool := s.err.contains r

/-- One event (serving_request.cpp:40-63). -/
def event (s : St) : Ev → St
  | .fail r => if pending s r then { s with err := r :: s.err } else s
  | .finish r => { s with q := s.q.filter (fun x => x.1 != r) }

/-- Events between two accesses of the client (serving_request.cpp:40-63). -/
def events (s : St) (l : List Ev) : St := l.foldl event s

/-- `block->read(bid)`, `block->write(bid)` (typed_block.hpp:307-327) when they do not throw. -/
def submit (s : St) (blk : Nat) : St :=
  { s with q := s.q ++ [(s.nextReq, blk)], nextReq := s.nextReq + 1 }

/-- `request::cancel` (request_with_state.cpp:46-67); `c`: it comes in time, which it does not for a request that was tried. -/
def cancel (s : St) (r : Nat) (c : Bool) : St :=
  if c && !failed s r then { s with q := s.q.filter (fun x => x.1 != r) } else s

/-- The constructors (write_pool.hpp:72-79, prefetch_pool.hpp:81-87, read_write_pool.hpp:50-55). -/
def init (nw np : Nat) : St :=
  { q := [], err := [], nextReq := 0, nextBlk := nw + np, wfree := List.range nw, wbusy := [],
    pfree := List.range' nw np, pfs := np, pbusy := [], uidle := [], upend := [], deleted := [], leaked := [], dead := false }

/-- `write_pool::size` (write_pool.hpp:123). -/
def wsize (s : St) : Nat := s.wfree.length + s.wbusy.length
/-- `prefetch_pool::size` (prefetch_pool.hpp:124-127). -/
def psize (s : St) : Nat := s.pfs + s.pbusy.length

/-- Result of a loop of `wait_any` (request_operations.hpp:112-131, 135-140). -/
inductive Scan
  /-- no request was finished -/
  | none
  | found (i : Nat)
  /-- `poll` has thrown (request_with_waiters.cpp:31, request_operations.hpp:138) -/
  | threw
deriving DecidableEq, Repr

/-- One loop of `wait_any` over the busy entries (request_operations.hpp:112-131; also 135-140, where the loop goes on only to
remove the waiters); before each request the events of the head of `evs` happen. -/
def scan (s : St) (evs : List (List Ev)) : List WEnt → Nat → St × List (List Ev) × Scan
  | [], _ => (s, evs, .none)
  | e :: es, i =>
    let s := events s (evs.headD [])
    if failed s e.req then (s, evs.tail, .threw)
    else if pending s e.req then scan s evs.tail es (i + 1)
    else (s, evs.tail, .found i)

/-- `wait_any` (request_operations.hpp:103-143); the second loop after `wait_for_on` (line 133). -/
def waitAny (s : St) (evs : List (List Ev)) : St × List (List Ev) × Scan :=
  match scan s evs s.wbusy 0 with
  | (s1, evs1, .none) => scan (events s1 (evs1.headD [])) evs1.tail s.wbusy 0
  | r => r

/-- The loop of `check_all_busy` (write_pool.hpp:237-249); `pre` are the entries that stay. -/
def checkBusy (s : St) (evs : List (List Ev)) (pre : List WEnt) : List WEnt → Out St
  | [] => .ok { s with wbusy := pre }
  | e :: es =>
    let s := events s (evs.headD [])
    if failed s e.req then .throw { s with wbusy := pre ++ e :: es }
    else if pending s e.req then checkBusy s evs.tail (pre ++ [e]) es
    else checkBusy { s with wfree := s.wfree ++ [e.blk] } evs.tail pre es

/-- `write_pool::steal` (write_pool.hpp:154-173). -/
def wsteal (s : St) (evs : List (List Ev)) : Out (St × Nat) :=
  if wsize s = 0 then .assertFail
  else
    match s.wfree.getLast? with
    | some p => .ok ({ s with wfree := s.wfree.dropLast }, p)
    | none =>
      match waitAny s evs with
      | (_, _, .none) => .assertFail
      | (s, _, .threw) => .throw s
      | (s, evs, .found i) =>
        match s.wbusy[i]? with
        | none => .assertFail
        | some e =>
          match checkBusy s evs [] (s.wbusy.eraseIdx i) with
          | .ok s => .ok (s, e.blk)
          | .throw s => .throw { s with leaked := s.leaked ++ [e.blk] }
          | .blocked => .blocked
          | .assertFail => .assertFail
          | .die => .die
          | .ub => .ub

/-- `while (++diff <= 0) delete steal();` (write_pool.hpp:191-192) -/
def stealN (s : St) (evss : List (List (List Ev))) : Nat → Out St
  | 0 => .ok s
  | k + 1 =>
    match wsteal s (evss.headD []) with
    | .ok (s, p) => stealN { s with deleted := s.deleted ++ [p] } evss.tail k
    | .throw s => .throw s
    | .blocked => .blocked
    | .assertFail => .assertFail
    | .die => .die
    | .ub => .ub

/-- `write_pool::resize` (write_pool.hpp:177-193); `k`: so many `new` succeed. -/
def wresize (s : St) (n k : Nat) (evss : List (List (List Ev))) : Out St :=
  if wsize s < n then
    let d := n - wsize s
    if k < d then .throw { s with wfree := s.wfree ++ List.range' s.nextBlk k, nextBlk := s.nextBlk + k }
    else .ok { s with wfree := s.wfree ++ List.range' s.nextBlk d, nextBlk := s.nextBlk + d }
  else stealN s evss (wsize s - n)

/-- Entry found by `has_request` and `steal_request` (write_pool.hpp:195-225). -/
def findW (s : St) (bid : Nat) : Option WEnt := s.wbusy.find? (fun e => e.bid == some bid)

/-- `busy_blocks.find` of the prefetch pool (prefetch_pool.hpp:246, 265, 272, 303, 324). -/
def findP (s : St) (bid : Nat) : Option PEnt := s.pbusy.find? (fun e => e.bid == bid)

/-- `prefetch_pool::hint(bid)` (prefetch_pool.hpp:174-194) and, with `useW`, `hint(bid, w_pool)` (212-241); `sub`: the
submission throws. -/
def hint (s : St) (bid : Nat) (useW sub : Bool) : Out St :=
  if (findP s bid).isSome then .ok s
  else if s.pfs = 0 then .ok s
  else
    match s.pfree.getLast? with
    | none => .ub
    | some blk =>
      let s := { s with pfs := s.pfs - 1, pfree := s.pfree.dropLast }
      match (if useW then findW s bid else none) with
      | some e =>
        .ok { s with wbusy := s.wbusy.erase e, wfree := s.wfree ++ [blk],
                     pbusy := s.pbusy ++ [⟨bid, e.blk, e.req, false⟩] }
      | none =>
        if sub then .throw { s with leaked := s.leaked ++ [blk] }
        else
          let r := s.nextReq
          let s := submit s blk
          .ok { s with pbusy := s.pbusy ++ [⟨bid, blk, r, true⟩] }

/-- `prefetch_pool::invalidate` (prefetch_pool.hpp:244-260); `evs` happen before `wait` returns. -/
def invalidate (s : St) (bid : Nat) (canc : Bool) (evs : List Ev) : Out (St × Bool) :=
  match findP s bid with
  | none => .ok (s, false)
  | some e =>
    let s := if e.rd then cancel s e.req canc else s
    let s := events s evs
    if pending s e.req then .blocked
    else if failed s e.req then .throw s
    else .ok ({ s with pfs := s.pfs + 1, pfree := s.pfree ++ [e.blk], pbusy := s.pbusy.erase e }, true)

/-- The loop over the busy blocks in `write_pool::write` (write_pool.hpp:134-145): entries with the same identifier are cancelled
(in time if in `canc`) and lose their identifier. -/
def dropStale (s : St) (bid : Nat) (canc : List Nat) : St :=
  { s with q := s.q.filter (fun x => !(canc.contains x.1 && !failed s x.1 &&
              s.wbusy.any (fun e => e.bid == some bid && e.req == x.1)))
           wbusy := s.wbusy.map (fun e => if e.bid = some bid then { e with bid := none } else e) }

/-- `write_pool::write` (write_pool.hpp:131-150). -/
def wwrite (s : St) (blk bid : Nat) (canc : List Nat) (sub : Bool) : Out St :=
  if s.wbusy.any (fun e => e.bid == some bid && e.blk == blk) then .assertFail
  else
    let s := dropStale s bid canc
    if sub then .throw s
    else
      let r := s.nextReq
      let s := submit s blk
      .ok { s with wbusy := s.wbusy ++ [⟨blk, r, some bid⟩], uidle := s.uidle.erase blk }

/-- `read_write_pool::write` (read_write_pool.hpp:106-116). -/
def write (s : St) (blk bid : Nat) (cancW : List Nat) (subW cancP : Bool) (evs : List Ev) (subP : Bool) : Out St :=
  match wwrite s blk bid cancW subW with
  | .ok s =>
    match invalidate s bid cancP evs with
    | .ok (s, true) => hint s bid true subP
    | .ok (s, false) => .ok s
    | .throw s => .throw s
    | .blocked => .blocked
    | .assertFail => .assertFail
    | .die => .die
    | .ub => .ub
  | .throw s => .throw s
  | .blocked => .blocked
  | .assertFail => .assertFail
  | .die => .die
  | .ub => .ub

/-- `prefetch_pool::read(block, bid)` (prefetch_pool.hpp:301-319) and, with `useW`, `read(block, bid, w_pool)` (321-351). -/
def read (s : St) (blk bid : Nat) (useW sub : Bool) : Out St :=
  match findP s bid with
  | some e =>
    .ok { s with pfs := s.pfs + 1, pfree := s.pfree ++ [blk], pbusy := s.pbusy.erase e,
                 uidle := s.uidle.erase blk, upend := s.upend ++ [⟨e.blk, e.req⟩] }
  | none =>
    match (if useW then findW s bid else none) with
    | some e =>
      .ok { s with wbusy := s.wbusy.erase e, wfree := s.wfree ++ [blk],
                   uidle := s.uidle.erase blk, upend := s.upend ++ [⟨e.blk, e.req⟩] }
    | none =>
      if sub then .throw s
      else
        let r := s.nextReq
        let s := submit s blk
        .ok { s with uidle := s.uidle.erase blk, upend := s.upend ++ [⟨blk, r⟩] }

/-- `prefetch_pool::poll` (prefetch_pool.hpp:281-285) with `request_with_state::poll` (request_with_state.cpp:69-76). -/
def pollHint (s : St) (bid : Nat) : Out Bool :=
  match findP s bid with
  | none => .ok false
  | some e => if failed s e.req then .throw s else .ok (!pending s e.req)

/-- `prefetch_pool::resize` (prefetch_pool.hpp:359-379); `k`: so many `new` succeed. -/
def presize (s : St) (n k : Nat) : Out St :=
  if psize s < n then
    let d := n - psize s
    let s := { s with pfs := s.pfs + d }
    if k < d then .throw { s with pfree := s.pfree ++ List.range' s.nextBlk k, nextBlk := s.nextBlk + k }
    else .ok { s with pfree := s.pfree ++ List.range' s.nextBlk d, nextBlk := s.nextBlk + d }
  else
    let d := min (psize s - n) s.pfs
    if s.pfree.length < d then .ub
    else .ok { s with pfs := s.pfs - d, pfree := s.pfree.take (s.pfree.length - d),
                      deleted := s.deleted ++ s.pfree.drop (s.pfree.length - d) }

/-- The loop over the busy blocks in the destructors (write_pool.hpp:106-119, prefetch_pool.hpp:110-120), with blocks and requests:
the exception of `wait` ends the loop and is dropped. -/
def destroyLoop (s : St) (evs : List (List Ev)) : List (Nat × Nat) → Out St
  | [] => .ok s
  | (b, r) :: es =>
    let s := events s (evs.headD [])
    if pending s r then .blocked
    else if failed s r then .ok { s with leaked := s.leaked ++ b :: es.map (·.1) }
    else destroyLoop { s with deleted := s.deleted ++ [b] } evs.tail es

/-- `~write_pool` (write_pool.hpp:93-120). -/
def destroyW (s : St) (evs : List (List Ev)) : Out St :=
  destroyLoop { s with deleted := s.deleted ++ s.wfree, wfree := [], wbusy := [] } evs (s.wbusy.map (fun e => (e.blk, e.req)))

/-- `~prefetch_pool` (prefetch_pool.hpp:102-121); `ord` is the order of the hash table. -/
def destroyP (s : St) (evs : List (List Ev)) (ord : List PEnt) : Out St :=
  if ord.isPerm s.pbusy then
    destroyLoop { s with deleted := s.deleted ++ s.pfree, pfree := [], pfs := 0, pbusy := [] } evs
      (ord.map (fun e => (e.blk, e.req)))
  else .blocked

/-- `~read_write_pool` (read_write_pool.hpp:70-76). -/
def destroy (s : St) (evsW evsP : List (List Ev)) (ord : List PEnt) : Out St :=
  match destroyW s evsW with
  | .ok s =>
    match destroyP s evsP ord with
    | .ok s => .ok { s with dead := true }
    | o => o
  | o => o

/-- Calls of the client (read_write_pool.hpp:70-193, prefetch_pool.hpp:174-194, 301-319) and events. -/
inductive Op
  /-- the client allocates a block -/
  | alloc
  | write (blk bid : Nat) (cancW : List Nat) (subW cancP : Bool) (evs : List Ev) (subP : Bool)
  /-- `hint`, `read` with the write pool (`useW`) or without it -/
  | hint (bid : Nat) (useW sub : Bool)
  | read (blk bid : Nat) (useW sub : Bool)
  | invalidate (bid : Nat) (canc : Bool) (evs : List Ev)
  | poll (bid : Nat)
  | steal (evs : List (List Ev))
  | add (blk : Nat)
  | stealP
  | addP (blk : Nat)
  | resizeW (n k : Nat) (evss : List (List (List Ev)))
  | resizeP (n k : Nat)
  /-- the client waits for the request of entry `i` of `upend` -/
  | collect (i : Nat)
  | destroy (evsW evsP : List (List Ev)) (ord : List PEnt)
  | ev (e : Ev)
deriving Repr

/-- A call or an event (read_write_pool.hpp:70-193). -/
def step (s : St) : Op → Out St
  | .alloc => .ok { s with uidle := s.uidle ++ [s.nextBlk], nextBlk := s.nextBlk + 1 }
  | .write blk bid cw sw cp evs sp => write s blk bid cw sw cp evs sp
  | .hint bid useW sub => hint s bid useW sub
  | .read blk bid useW sub => read s blk bid useW sub
  | .invalidate bid c evs =>
    match invalidate s bid c evs with
    | .ok (s, _) => .ok s
    | .throw s => .throw s
    | .blocked => .blocked
    | .assertFail => .assertFail
    | .die => .die
    | .ub => .ub
  | .poll bid =>
    match pollHint s bid with
    | .ok _ => .ok s
    | .throw s => .throw s
    | .blocked => .blocked
    | .assertFail => .assertFail
    | .die => .die
    | .ub => .ub
  | .steal evs =>
    match wsteal s evs with
    | .ok (s, p) => .ok { s with uidle := s.uidle ++ [p] }
    | .throw s => .throw s
    | .blocked => .blocked
    | .assertFail => .assertFail
    | .die => .die
    | .ub => .ub
  | .add blk => .ok { s with uidle := s.uidle.erase blk, wfree := s.wfree ++ [blk] }
  | .stealP =>
    match s.pfree.getLast? with
    | none => .die
    | some p => .ok { s with pfree := s.pfree.dropLast, pfs := s.pfs - 1, uidle := s.uidle ++ [p] }
  | .addP blk => .ok { s with uidle := s.uidle.erase blk, pfree := s.pfree ++ [blk], pfs := s.pfs + 1 }
  | .resizeW n k evss => wresize s n k evss
  | .resizeP n k => presize s n k
  | .collect i =>
    match s.upend[i]? with
    | none => .blocked
    | some e =>
      if pending s e.req then .blocked
      else
        let s' := { s with upend := s.upend.eraseIdx i, uidle := s.uidle ++ [e.blk] }
        if failed s e.req then .throw s' else .ok s'
  | .destroy evsW evsP ord => destroy s evsW evsP ord
  | .ev e => .ok (event s e)

/-- The documented protocol (write_pool.hpp:125-130, prefetch_pool.hpp:287-300): the client passes only blocks it owns and does not
use for a request, and does not use the pools after their destructors. -/
def Legal (s : St) : Op → Prop
  | .alloc | .collect _ | .ev _ => True
  | .write blk _ _ _ _ _ _ | .read blk _ _ _ | .add blk | .addP blk => s.dead = false ∧ blk ∈ s.uidle
  | _ => s.dead = false

/-- Histories from the constructors (read_write_pool.hpp:50-55) on in which all operations satisfy `A`; a client may go on after an
exception. -/
inductive Reach (A : Op → Prop) : St → Prop
  | start (nw np : Nat) : Reach A (init nw np)
  | ok {s s'} (op : Op) : Reach A s → A op → Legal s op → step s op = .ok s' → Reach A s'
  | throw {s s'} (op : Op) : Reach A s → A op → Legal s op → step s op = .throw s' → Reach A s'

end Foxxll.PoolFail
