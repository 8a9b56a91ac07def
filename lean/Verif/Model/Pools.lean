/-
Model of the block pools: `write_pool` (/repo/foxxll/mng/write_pool.hpp), `prefetch_pool`
(/repo/foxxll/mng/prefetch_pool.hpp) and `read_write_pool`
(/repo/foxxll/mng/read_write_pool.hpp).

One client thread uses a `read_write_pool`; the I/O threads serve the requests.  Blocks,
requests and block identifiers are numbers; `none` as identifier of a busy entry is a BID whose
storage was set to null (write_pool.hpp:143).  A write request transfers the content the block
has when it is served.

Disk queue: by default requests for the same identifier are served such that reads and writes
stay behind earlier writes (C21, C22); with `ordered = false` any pending request may be served
next (linuxaio).  Whether a `cancel()` comes in time is decided by an oracle.  Statistics,
exceptions from failed I/O and the destructors are left out.
-/
namespace Foxxll.Pool

/-- A pending request: operation, identifier and block (`block->write(bid)` in write_pool.hpp:146, `block->read(bid)` in
prefetch_pool.hpp:235, 350). -/
structure Req where
  id : Nat
  rd : Bool
  bid : Nat
  blk : Nat
deriving DecidableEq, Repr

/-- `write_pool::busy_entry` (write_pool.hpp:47-59). -/
structure WEntry where
  blk : Nat
  req : Nat
  bid : Option Nat
deriving DecidableEq, Repr

/-- An element of `prefetch_pool::busy_blocks` (prefetch_pool.hpp:64-65, 73); `rd` is `req->op() ==
READ` (prefetch_pool.hpp:252). -/
structure PEntry where
  bid : Nat
  blk : Nat
  req : Nat
  rd : Bool
deriving DecidableEq, Repr

/-- A block obtained by `read` together with the request the client has to wait for (prefetch_pool.hpp:321-351).  `want` is
history: the content most recently written to `bid` when `read` was called. -/
structure UEntry (V : Type) where
  blk : Nat
  req : Nat
  bid : Nat
  want : V

/-- Where the client thread can be blocked inside a method (prefetch_pool.hpp:255, write_pool.hpp:191-192). -/
inductive Pc
  | idle
  /-- in `prefetch_pool::invalidate`, at `wait()` (prefetch_pool.hpp:255); afterwards hint again? -/
  | inval (bid : Nat) (rehint : Bool)
  /-- in the loop `while (++diff <= 0) delete steal()` (write_pool.hpp:191-192) -/
  | resizing (k : Nat)
deriving DecidableEq, Repr

/-- The members of the pools (write_pool.hpp:65-67, prefetch_pool.hpp:69-76), memory, disk, pending requests and blocks of
the client. -/
structure St (V : Type) where
  mem : Nat → V
  disk : Nat → V
  /-- pending requests in order of submission -/
  q : List Req
  nextReq : Nat
  nextBlk : Nat
  wfree : List Nat
  wbusy : List WEntry
  pfree : List Nat
  /-- `free_blocks_size` (prefetch_pool.hpp:76) -/
  pfs : Nat
  pbusy : List PEntry
  /-- blocks of the client without and with an unfinished request -/
  uidle : List Nat
  upend : List (UEntry V)
  pc : Pc
  /-- history: last content passed to `write` per identifier; results of reads
  (identifier, content to be expected, content found) -/
  last : Nat → V
  results : List (Nat × V × V)

variable {V : Type}

/-- Assignment to one element (memory, disk) (no code of its own). -/
def upd {β : Type} (f : Nat → β) (k : Nat) (v : β) : Nat → β := fun j => if j = k then v else f j

/-- Outcomes of calls. -/
inductive Res (σ : Type)
  | ok (s : σ)
  | blocked
  /-- a failing `assert` (write_pool.hpp:137, 156, 166; undefined behaviour without asserts) -/
  | assertFail
  /-- `tlx_die_unless` (prefetch_pool.hpp:154) -/
  | die

/-- `request::poll` (request_with_state.cpp:69-76) without errors: the request is not pending any more. -/
def isDone (s : St V) (r : Nat) : Bool := s.q.all (fun x => x.id != r)

/-- `block->read(bid)`, `block->write(bid)` (typed_block.hpp:307-327): the request is appended to the disk queue. -/
def submit (s : St V) (rd : Bool) (bid blk : Nat) : St V :=
  { s with q := s.q ++ [⟨s.nextReq, rd, bid, blk⟩], nextReq := s.nextReq + 1 }

/-- Successful `cancel()` of a request (request_with_state.cpp:46-67). -/
def cancel (s : St V) (r : Nat) : St V := { s with q := s.q.filter (fun x => x.id != r) }

/-- The constructors (write_pool.hpp:72-79, prefetch_pool.hpp:81-87, read_write_pool.hpp:50-55): `nw`, `np` initial blocks. -/
def init (nw np : Nat) (mem disk : Nat → V) : St V :=
  { mem := mem, disk := disk, q := [], nextReq := 0, nextBlk := nw + np, wfree := List.range nw, wbusy := [],
    pfree := List.range' nw np, pfs := np, pbusy := [], uidle := [], upend := [], pc := .idle,
    last := disk, results := [] }

/-- `write_pool::size` (write_pool.hpp:123). -/
def wsize (s : St V) : Nat := s.wfree.length + s.wbusy.length
/-- `prefetch_pool::size` (prefetch_pool.hpp:124-127). -/
def psize (s : St V) : Nat := s.pfs + s.pbusy.length

/-- The loop over the busy blocks in `write_pool::write` (write_pool.hpp:134-145): entries with the same
identifier are cancelled (successfully if in `canc`) and lose their identifier. -/
def dropStale (s : St V) (bid : Nat) (canc : List Nat) : St V :=
  { s with q := s.q.filter (fun x => !(canc.contains x.id && s.wbusy.any (fun e => e.bid == some bid && e.req == x.id)))
           wbusy := s.wbusy.map (fun e => if e.bid = some bid then { e with bid := none } else e) }

/-- `write_pool::write` (write_pool.hpp:131-150). -/
def wwrite (s : St V) (blk bid : Nat) (canc : List Nat) : St V :=
  let s := dropStale s bid canc
  let r := s.nextReq
  let s := submit s false bid blk
  { s with wbusy := s.wbusy ++ [⟨blk, r, some bid⟩] }

/-- `steal_request` (write_pool.hpp:206-225), the entry found first; together with `has_request` (write_pool.hpp:195-203). -/
def findW (s : St V) (bid : Nat) : Option WEntry := s.wbusy.find? (fun e => e.bid == some bid)

/-- `prefetch_pool::find` (prefetch_pool.hpp:270-278) and the other lookups in `busy_blocks` (prefetch_pool.hpp:246, 265, 324). -/
def findP (s : St V) (bid : Nat) : Option PEntry := s.pbusy.find? (fun e => e.bid == bid)

/-- `prefetch_pool::hint(bid, w_pool)` (prefetch_pool.hpp:212-241).  With `free_blocks_size > 0` and an empty list, `back()`
would be undefined; C19 shows that the number is the length of the list. -/
def hint (s : St V) (bid : Nat) : St V :=
  if (findP s bid).isSome then s
  else if s.pfs ≠ 0 then
    match s.pfree.getLast? with
    | none => s
    | some blk =>
      let s := { s with pfs := s.pfs - 1, pfree := s.pfree.dropLast }
      match findW s bid with
      | some e =>
        { s with wbusy := s.wbusy.erase e, wfree := s.wfree ++ [blk],
                 pbusy := s.pbusy ++ [⟨bid, e.blk, e.req, false⟩] }
      | none =>
        let r := s.nextReq
        let s := submit s true bid blk
        { s with pbusy := s.pbusy ++ [⟨bid, blk, r, true⟩] }
  else s

/-- `prefetch_pool::invalidate` (prefetch_pool.hpp:244-260) up to `wait()`; `canc`: the cancellation of a read
comes in time. -/
def invalBegin (s : St V) (bid : Nat) (canc rehint : Bool) : St V :=
  match findP s bid with
  | none => s
  | some e =>
    let s := if e.rd && canc then cancel s e.req else s
    { s with pc := .inval bid rehint }

/-- The rest of `invalidate` (prefetch_pool.hpp:256-259), in `read_write_pool::write` followed by `hint`
(read_write_pool.hpp:112-113). -/
def invalEnd (s : St V) (bid : Nat) (rehint : Bool) : Res (St V) :=
  match findP s bid with
  | none => .blocked
  | some e =>
    if isDone s e.req then
      let s := { s with pfs := s.pfs + 1, pfree := s.pfree ++ [e.blk], pbusy := s.pbusy.erase e, pc := .idle }
      .ok (if rehint then hint s bid else s)
    else .blocked

/-- `write_pool::steal` (write_pool.hpp:154-173): returns the block.  `wait_any` returns busy entry number `c`
(`none`: `reqs_end` after a spurious wake-up), `check_all_busy` (write_pool.hpp:235-254) finds the requests in
`polled` completed. -/
def wsteal (s : St V) (c : Option Nat) (polled : List Nat) : Res (St V × Nat) :=
  if wsize s = 0 then .assertFail
  else
    match s.wfree.getLast? with
    | some p => .ok ({ s with wfree := s.wfree.dropLast }, p)
    | none =>
      match c with
      | none => .assertFail
      | some c =>
        match s.wbusy[c]? with
        | none => .blocked
        | some e =>
          if isDone s e.req && polled.all (isDone s) then
            let rest := s.wbusy.eraseIdx c
            .ok ({ s with
                    wbusy := rest.filter (fun x => !polled.contains x.req)
                    wfree := s.wfree ++ (rest.filter (fun x => polled.contains x.req)).map (·.blk) }, e.blk)
          else .blocked

/-- `prefetch_pool::read(block, bid, w_pool)` (prefetch_pool.hpp:321-351): the state, the block and the request
returned. -/
def pread (s : St V) (blk bid : Nat) : St V × Nat × Nat :=
  match findP s bid with
  | some e =>
    ({ s with pfs := s.pfs + 1, pfree := s.pfree ++ [blk], pbusy := s.pbusy.erase e }, e.blk, e.req)
  | none =>
    match findW s bid with
    | some e => ({ s with wbusy := s.wbusy.erase e, wfree := s.wfree ++ [blk] }, e.blk, e.req)
    | none => (submit s true bid blk, blk, s.nextReq)

/-- `prefetch_pool::resize` (prefetch_pool.hpp:359-379). -/
def presize (s : St V) (n : Nat) : St V :=
  if psize s < n then
    let d := n - psize s
    { s with pfs := s.pfs + d, pfree := s.pfree ++ List.range' s.nextBlk d, nextBlk := s.nextBlk + d }
  else
    let d := min (psize s - n) s.pfs
    { s with pfs := s.pfs - d, pfree := s.pfree.take (s.pfree.length - d) }

/-- `write_pool::resize` (write_pool.hpp:177-193), up to the first `steal()`. -/
def wresize (s : St V) (n : Nat) : St V :=
  if wsize s < n then
    let d := n - wsize s
    { s with wfree := s.wfree ++ List.range' s.nextBlk d, nextBlk := s.nextBlk + d }
  else { s with pc := .resizing (wsize s - n) }

/-- The calls of a client (read_write_pool.hpp:84-193), and steps of the client and of the I/O threads. -/
inductive Op (V : Type)
  /-- the client allocates a block -/
  | alloc
  /-- the client changes a block -/
  | fill (blk : Nat) (v : V)
  /-- `write(blk, bid)` (read_write_pool.hpp:106-116) -/
  | write (blk bid : Nat) (cancW : List Nat) (cancP : Bool)
  /-- `hint`, `invalidate`, `read`, `steal`, `add` (read_write_pool.hpp:120-129, 140-149, 163-166) -/
  | hint (bid : Nat)
  | invalidate (bid : Nat) (canc : Bool)
  /-- the cancellation of the read in `invalidate` comes in time, at any moment before `wait()` (prefetch_pool.hpp:252-255) -/
  | cancelRead
  | read (blk bid : Nat)
  | steal (c : Option Nat) (polled : List Nat)
  | add (blk : Nat)
  /-- `steal_prefetch` (read_write_pool.hpp:190-193, prefetch_pool.hpp:152-160) -/
  | stealP
  /-- `add_prefetch` (read_write_pool.hpp:182-185, prefetch_pool.hpp:142-147) -/
  | addP (blk : Nat)
  | resizeW (n : Nat)
  | resizeP (n : Nat)
  /-- the client waits for the request of entry `i` of `upend` -/
  | collect (i : Nat)
  /-- the thread continues in `invalidate` or `resize` -/
  | work (c : Option Nat) (polled : List Nat)
  /-- an I/O thread serves a request -/
  | serve (r : Nat)

/-- May request number `i` of the queue be served now?  With `ordered` a request stays behind earlier writes to its identifier
(request_queue_impl_qwqr.cpp:61-108, see C23). -/
def mayServe (ordered : Bool) (q : List Req) (i : Nat) : Bool :=
  match q[i]? with
  | none => false
  | some x => !ordered || (q.take i).all (fun y => !(y.bid == x.bid && !y.rd))

/-- A call or a step (read_write_pool.hpp:84-193). -/
def step (ordered : Bool) (s : St V) : Op V → Res (St V)
  | .alloc => if s.pc = .idle then .ok { s with uidle := s.uidle ++ [s.nextBlk], nextBlk := s.nextBlk + 1 } else .blocked
  | .fill blk v => if s.pc = .idle then .ok { s with mem := upd s.mem blk v } else .blocked
  | .write blk bid cw cp =>
    if s.pc = .idle then
      if s.wbusy.any (fun e => e.bid == some bid && e.blk == blk) then .assertFail
      else
        let s := { s with uidle := s.uidle.erase blk, last := upd s.last bid (s.mem blk) }
        .ok (invalBegin (wwrite s blk bid cw) bid cp true)
    else .blocked
  | .hint bid => if s.pc = .idle then .ok (hint s bid) else .blocked
  | .invalidate bid c => if s.pc = .idle then .ok (invalBegin s bid c false) else .blocked
  | .cancelRead =>
    match s.pc with
    | .inval bid _ =>
      match findP s bid with
      | some e => if e.rd then .ok (cancel s e.req) else .blocked
      | none => .blocked
    | _ => .blocked
  | .read blk bid =>
    if s.pc = .idle then
      let s := { s with uidle := s.uidle.erase blk }
      match pread s blk bid with
      | (s', b, r) => .ok { s' with upend := s'.upend ++ [⟨b, r, bid, s.last bid⟩] }
    else .blocked
  | .steal c polled =>
    if s.pc = .idle then
      match wsteal s c polled with
      | .ok (s', p) => .ok { s' with uidle := s'.uidle ++ [p] }
      | .blocked => .blocked
      | .assertFail => .assertFail
      | .die => .die
    else .blocked
  | .add blk => if s.pc = .idle then .ok { s with uidle := s.uidle.erase blk, wfree := s.wfree ++ [blk] } else .blocked
  | .stealP =>
    if s.pc = .idle then
      match s.pfree.getLast? with
      | none => .die
      | some p => .ok { s with pfree := s.pfree.dropLast, pfs := s.pfs - 1, uidle := s.uidle ++ [p] }
    else .blocked
  | .addP blk =>
    if s.pc = .idle then .ok { s with uidle := s.uidle.erase blk, pfree := s.pfree ++ [blk], pfs := s.pfs + 1 }
    else .blocked
  | .resizeW n => if s.pc = .idle then .ok (wresize s n) else .blocked
  | .resizeP n => if s.pc = .idle then .ok (presize s n) else .blocked
  | .collect i =>
    if s.pc = .idle then
      match s.upend[i]? with
      | none => .blocked
      | some e =>
        if isDone s e.req then
          .ok { s with upend := s.upend.eraseIdx i, uidle := s.uidle ++ [e.blk],
                       results := s.results ++ [(e.bid, e.want, s.mem e.blk)] }
        else .blocked
    else .blocked
  | .work c polled =>
    match s.pc with
    | .idle => .blocked
    | .inval bid rehint => invalEnd s bid rehint
    | .resizing 0 => .ok { s with pc := .idle }
    | .resizing (k + 1) =>
      match wsteal s c polled with
      | .ok (s', _) => .ok { s' with pc := .resizing k }
      | .blocked => .blocked
      | .assertFail => .assertFail
      | .die => .die
  | .serve r =>
    match s.q.findIdx? (fun x => x.id == r) with
    | none => .blocked
    | some i =>
      if mayServe ordered s.q i then
        match s.q[i]? with
        | none => .blocked
        | some x =>
          if x.rd then .ok { s with q := s.q.eraseIdx i, mem := upd s.mem x.blk (s.disk x.bid) }
          else .ok { s with q := s.q.eraseIdx i, disk := upd s.disk x.bid (s.mem x.blk) }
      else .blocked

/-- The documented protocol (write_pool.hpp:125-130, prefetch_pool.hpp:287-300): the client passes only blocks it owns and does not use for a
request; it does not write to an identifier while its own read of it is under way. -/
def Legal (s : St V) : Op V → Prop
  | .fill blk _ => blk ∈ s.uidle
  | .write blk bid _ _ => blk ∈ s.uidle ∧ ∀ e ∈ s.upend, e.bid = bid → isDone s e.req = true
  | .read blk _ => blk ∈ s.uidle
  | .add blk => blk ∈ s.uidle
  | .addP blk => blk ∈ s.uidle
  | _ => True

/-- Histories of a `read_write_pool` from its constructor (read_write_pool.hpp:50-55) on. -/
inductive Reach (ordered : Bool) : St V → Prop
  | start (nw np : Nat) (mem disk : Nat → V) : Reach ordered (init nw np mem disk)
  | next {s s'} (op : Op V) : Reach ordered s → Legal s op → step ordered s op = .ok s' → Reach ordered s'

end Foxxll.Pool
