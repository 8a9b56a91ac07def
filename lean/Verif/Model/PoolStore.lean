import Verif.Model.Pools
import Verif.Model.Store
/-
The read/write pool (`Model/Pools.lean`) on top of the rest of the library (`Model/Store.lean`): the blocks of the pools and
of their client are buffers of the store, the requests of the pools are requests of the store, and `cancel()` goes to the queue of
the request.  Nothing is assumed about the order in which requests are served or about the content of the disks.

/repo/foxxll/mng/read_write_pool.hpp, write_pool.hpp, prefetch_pool.hpp, /repo/foxxll/io/request_with_state.cpp.

Block identifier number `b` is `own[b]`, block `j` is buffer `loc j` of the store.

Simplifications: those of the two models; the wait for the credit inside of `cancel_request` (request_queue_impl_1q.cpp:110,
request_queue_impl_qwqr.cpp:130, 143) is a step of its own that may also come later; a request is finished as soon as it has been served or canceled; what happens after an I/O error is
left out (`Model/PoolFail.lean`).
-/
namespace Foxxll.PoolStore
open Foxxll

/-- Contents of blocks (typed_block.hpp:73-101). -/
abbrev V := List UInt8

/-- Where the client thread is inside of `write` or `invalidate`. -/
inductive Act
  | idle
  /-- in the loop of `write_pool::write` (write_pool.hpp:134-145) for block `blk` and identifier `bid`: requests still to be canceled,
  requests canceled -/
  | drop (blk bid : Nat) (todo canc : List Nat)
  /-- before the `cancel()` of `prefetch_pool::invalidate` (prefetch_pool.hpp:252-253) of this request -/
  | inval (req : Nat)
deriving DecidableEq, Repr

/-- The pools, the store, and the requests of the pools as numbers of requests of the store (`busy_entry`, write_pool.hpp:47-59,
prefetch_pool.hpp:64-65). -/
structure Sys where
  p : Pool.St V
  d : Store.St
  rid : Nat → Nat
  act : Act

/-- Has the request of the pools been served? (request_with_state.cpp:69-76, 78-90). -/
def Sys.served (qid : Nat → Nat) (s : Sys) (i : Nat) : Bool :=
  match s.d.reqs (s.rid i) with
  | none => false
  | some q => (s.d.qs (qid q.disk)).served.contains (s.rid i)

/-- What the files contain where block identifier number `b` is (bid.hpp:80-92, 140-152). -/
def content (own : List Mgr.Bid) (d : Store.St) (b : Nat) : V :=
  match own[b]? with
  | none => []
  | some bid =>
    match bid.storage with
    | .managed k => (List.range bid.size).map (fun i => (d.files k).byte (bid.off + i))
    | _ => []

/-- The pools as their methods find them: served requests are finished, the blocks and the disks contain what the store says (typed_block.hpp:307-327). -/
def Sys.view (qid : Nat → Nat) (own : List Mgr.Bid) (loc : Nat → Nat) (s : Sys) : Pool.St V :=
  { s.p with mem := fun j => s.d.mem (loc j), disk := content own s.d, q := s.p.q.filter (fun x => !s.served qid x.id) }

/-- Events. -/
inductive Ev
  /-- a method other than `write`, or a step inside of one (read_write_pool.hpp:84-193); a request made in it gets number `r` -/
  | call (op : Pool.Op V) (r : Nat)
  /-- the client fills a block (typed_block.hpp:73-101) -/
  | fill (blk : Nat) (data : List UInt8)
  /-- `write(blk, bid)` is called (read_write_pool.hpp:106) -/
  | write (blk bid : Nat)
  /-- the next `cancel()` in the loop (write_pool.hpp:140) -/
  | cancel
  /-- the rest of `write_pool::write` (write_pool.hpp:146-149): request `r` -/
  | submit (r : Nat)
  /-- the `cancel()` in `invalidate` (prefetch_pool.hpp:253) -/
  | cancelP
  /-- a step of the workers, or of another client -/
  | env (op : Store.Op)

/-- Methods that are one event (read_write_pool.hpp:84-96, 120-193); `write` and the `cancel()` of `invalidate` are split. -/
def simple : Pool.Op V → Bool
  | .alloc | .hint _ | .read _ _ | .steal _ _ | .add _ | .stealP | .addP _ | .resizeW _ | .resizeP _ | .collect _ | .work _ _ => true
  | .invalidate _ c => !c
  | _ => false

/-- The request made by a method: the last one of the new state, if the numbers have grown (prefetch_pool.hpp:235, 350, write_pool.hpp:146). -/
def made (p p' : Pool.St V) : Option Pool.Req := if p.nextReq < p'.nextReq then p'.q.getLast? else none

/-- `block->read(bid)`, `block->write(bid)` (typed_block.hpp:307-327) on the store, request `r`. -/
def ioOf (own : List Mgr.Bid) (loc : Nat → Nat) (r : Nat) (x : Pool.Req) : Option Store.Op :=
  match own[x.bid]? with
  | none => none
  | some b => some (.io r (!x.rd) b (loc x.blk))

/-- Where the thread is after a method: before the `cancel()` of a read in `invalidate` (prefetch_pool.hpp:246-253)? -/
def next (old new : Pool.St V) : Act :=
  match old.pc, new.pc with
  | .idle, .inval bid _ =>
    match Pool.findP new bid with
    | some e => if e.rd then .inval e.req else .idle
    | none => .idle
  | _, _ => .idle

/-- The pools have changed to `p'`; the request made (write_pool.hpp:146, prefetch_pool.hpp:235, 350) is given to the store. -/
def Sys.settle (k : Queue.Kind) (qid : Nat → Nat) (own : List Mgr.Bid) (loc : Nat → Nat) (s : Sys) (p' : Pool.St V) (r : Nat) : Option Sys :=
  match made s.p p' with
  | none => some { s with p := p', act := next s.p p' }
  | some x =>
    match ioOf own loc r x with
    | none => none
    | some op =>
      match Store.step k qid s.d op with
      | none => none
      | some d => some { p := p', d := d, rid := Store.upd s.rid x.id r, act := next s.p p' }

/-- `cancel()` of request `i` (request_with_state.cpp:46-67): nothing happens if the request is finished (request_with_state.cpp:51); otherwise its queue is
asked. The result is whether it has been canceled. -/
def Sys.tryCancel (k : Queue.Kind) (qid : Nat → Nat) (s : Sys) (i : Nat) : Option (Store.St × Bool) :=
  if s.served qid i then some (s.d, false)
  else
    match s.d.reqs (s.rid i) with
    | none => none
    | some q =>
      match Store.step k qid s.d (.cancel (s.rid i)) with
      | none => none
      | some d => some (d, (d.qs (qid q.disk)).cancelled.contains (s.rid i))

/-- The busy blocks of identifier `bid` in the order of the list (write_pool.hpp:134-136). -/
def stale (p : Pool.St V) (bid : Nat) : List Nat := (p.wbusy.filter (fun e => e.bid == some bid)).map (·.req)

/-- One event (read_write_pool.hpp:84-193, write_pool.hpp:131-150, prefetch_pool.hpp:244-260); `none`: not possible now, or a failing assertion. -/
def Sys.step (k : Queue.Kind) (qid : Nat → Nat) (own : List Mgr.Bid) (loc : Nat → Nat) (s : Sys) : Ev → Option Sys
  | .call op r =>
    if s.act = .idle && simple op then
      match Pool.step true (s.view qid own loc) op with
      | .ok p' => s.settle k qid own loc p' r
      | _ => none
    else none
  | .fill blk data =>
    if s.act = .idle && s.p.pc = .idle then
      match Store.step k qid s.d (.fill (loc blk) data) with
      | some d => some { s with d := d }
      | none => none
    else none
  | .write blk bid =>
    if s.act = .idle && s.p.pc = .idle && !s.p.wbusy.any (fun e => e.bid == some bid && e.blk == blk) then
      some { s with act := .drop blk bid (stale s.p bid) [] }
    else none
  | .cancel =>
    match s.act with
    | .drop blk bid (i :: todo) canc =>
      match s.tryCancel k qid i with
      | some (d, done) => some { s with d := d, act := .drop blk bid todo (if done then i :: canc else canc) }
      | none => none
    | _ => none
  | .submit r =>
    match s.act with
    | .drop blk bid [] canc =>
      match Pool.step true (s.view qid own loc) (.write blk bid canc false) with
      | .ok p' => s.settle k qid own loc p' r
      | _ => none
    | _ => none
  | .cancelP =>
    match s.act with
    | .inval i =>
      match s.tryCancel k qid i with
      | some (d, true) =>
        match Pool.step true (s.view qid own loc) .cancelRead with
        | .ok p' => some { s with p := p', d := d, act := .idle }
        | _ => none
      | some (d, false) => some { s with d := d, act := .idle }
      | none => none
    | _ => none
  | .env op =>
    match Store.step k qid s.d op with
    | some d => some { s with d := d }
    | none => none

/-- The constructors (write_pool.hpp:72-79, prefetch_pool.hpp:81-87, read_write_pool.hpp:50-55). -/
def init (own : List Mgr.Bid) (loc : Nat → Nat) (nw np : Nat) (d : Store.St) (rid : Nat → Nat) : Sys :=
  { p := Pool.init nw np (fun j => d.mem (loc j)) (content own d), d := d, rid := rid, act := .idle }

end Foxxll.PoolStore
