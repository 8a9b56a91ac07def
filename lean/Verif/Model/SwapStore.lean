import Verif.Model.BlockScheduler
import Verif.Model.Store
/-
The block scheduler (`Model/BlockScheduler.lean`) on top of the rest of the library (`Model/Store.lean`): internal blocks are
buffers of the store, external blocks are blocks of the block manager, and data move between them by requests that the workers serve.
Nothing is assumed about what transfers do: the scheduler finds in an internal block what a worker has put there.

/repo/foxxll/mng/block_scheduler.hpp (online_lru, simulation and offline_lfd), /repo/foxxll/mng/typed_block.hpp:299-327.

What a call of the scheduler does to the store depends on the state of its tables, never on data.  So a call is a list of commands: new and deleted
external blocks, requests, waiting, and changes of memory.  The commands are executed one after the other, and between them anything
may happen in the store.

Simplifications: those of the two models.  External blocks have numbers, `bid` gives the block of a number; the tables hold numbers where the
code has the block identifiers.  The tables change at the beginning of a call, although nobody can look at them before its end.  After an
exception there are no more steps (see `Model/SwapFail.lean` for those).
-/
namespace Foxxll.SwapStore
open Foxxll

/-- What is done to the store and to internal blocks: `get_external_block` and `free_external_block` (block_scheduler.hpp:70-77), submission of a write
(`write`, 183), `wait` for the latest write not yet waited for (191, 531-534), `read_sync` (167-168), `fill_default` (153), and the client's
access (146-150). -/
inductive Cmd
  | new (e : Nat)
  | delete (e : Nat)
  | write (p e : Nat)
  | wait
  | read (p e : Nat)
  | fill (p : Nat)
  | put (p : Nat) (x : List UInt8)
deriving DecidableEq, Repr

/-- The tables of the scheduler (block_scheduler.hpp:321-333), without any data. -/
abbrev Ctl := Swap.St Unit

/-- A number for a new external block (any one that is not in use). -/
def pick (l : List Nat) : Nat := l.foldl Nat.max 0 + 1

/-- `clean_async` (block_scheduler.hpp:172-184): the new tables and the commands. -/
def cleanAsync (c : Ctl) (id : Nat) : Option (Ctl × List Cmd) :=
  let b := c.blocks id
  if b.dirty then
    match b.int with
    | none => none
    | some p =>
      match b.ext with
      | some e => some (c.set id { b with dirty := false }, [.write p e])
      | none =>
        let e := pick c.live
        some (c.set id { b with ext := some e, dirty := false }, [.new e, .write p e])
  else some (c, [])

/-- `clean_sync` (block_scheduler.hpp:187-192). -/
def cleanSync (c : Ctl) (id : Nat) : Option (Ctl × List Cmd) :=
  (cleanAsync c id).map fun r => (r.1, r.2 ++ if r.2.isEmpty then [] else [.wait])

/-- `detach_internal_block` (block_scheduler.hpp:203-210): the internal block, the tables, the commands. -/
def detach (c : Ctl) (id : Nat) : Option (Nat × Ctl × List Cmd) :=
  if (c.blocks id).isEvictable then
    (cleanSync c id).bind fun r =>
      match (r.1.blocks id).int with
      | none => none
      | some p => some (p, r.1.set id { r.1.blocks id with int := none }, r.2)
  else none

/-- `get_free_internal_block` of the algorithms (block_scheduler.hpp:630-638, 968-976). -/
def getFree (c : Ctl) : Option (Nat × Ctl × List Cmd) :=
  match Swap.getFreeBs c with
  | (some p, c1) => some (p, c1, [])
  | (none, c1) =>
    match Swap.popEvict c1.mode c1.evict with
    | none => none
    | some (x, rest) => detach { c1 with evict := rest } x.2

/-- block_scheduler.hpp:692-712: block `id` gets an internal block `p`, which is read or filled in. -/
def bringIn (c : Ctl) (id : Nat) (uninit : Bool) (p : Nat) : Ctl × List Cmd :=
  let b := c.blocks id
  let dirty := if b.isInitialized && !uninit then false else b.dirty
  (c.set id { b with int := some p, refs := b.refs + 1, dirty := dirty },
    if uninit then []
    else if b.isInitialized then
      match b.ext with
      | some e => [.read p e]
      | none => []
    else [.fill p])

/-- `acquire` (block_scheduler.hpp:677-713, 1052-1088). -/
def acquire (c : Ctl) (id : Nat) (uninit : Bool) : Option (Nat × Ctl × List Cmd) :=
  if c.n ≤ id then none
  else
    let b := c.blocks id
    match b.int with
    | some p =>
      let c1 := if b.isAcquired then c else { c with evict := Swap.eraseEvict c.evict id }
      some (p, c1.set id { b with refs := b.refs + 1 }, [])
    | none => (getFree c).map fun r =>
      let t := bringIn r.2.1 id uninit r.1
      (r.1, t.1, r.2.2 ++ t.2)

/-- The end of `release` (block_scheduler.hpp:718-728, 1106-1116). -/
def release (c : Ctl) (id : Nat) (dirty : Bool) (prio : Swap.SB → Nat) : Option (Ctl × List Cmd) :=
  if c.n ≤ id then none
  else
    let b := c.blocks id
    if b.isAcquired then
      let b1 := { b with dirty := dirty || b.dirty, refs := b.refs - 1 }
      let c1 := c.set id b1
      if b1.isAcquired then some (c1, [])
      else if b1.dirty || b1.isExternal then some ({ c1 with evict := Swap.insertEvict c1.evict (prio b1) id }, [])
      else (detach c1 id).map fun r => (Swap.giveBack r.2.1 r.1, r.2.2)
    else none

/-- `deinitialize` (block_scheduler.hpp:731-738, 1120-1127, 215-227). -/
def deinit (c : Ctl) (id : Nat) : Option (Ctl × List Cmd) :=
  (Swap.deinit c id).map fun c' =>
    (c', match (c.blocks id).ext with
      | some e => [.delete e]
      | none => [])

/-- `extract_external_block` (block_scheduler.hpp:746-754, 1135-1143, 239-245). -/
def extract (c : Ctl) (id : Nat) : Option (Option Nat × Ctl × List Cmd) :=
  if c.n ≤ id then none
  else
    let b := c.blocks id
    let c1 := if b.isEvictable then { c with evict := Swap.eraseEvict c.evict id } else c
    let r := if b.isInternal then (detach c1 id).map fun r => (Swap.giveBack r.2.1 r.1, r.2.2) else some (c1, [])
    r.map fun r =>
      let b := r.1.blocks id
      (b.ext, { (r.1.set id { b with ext := none }) with held := b.ext.toList ++ r.1.held }, r.2)

/-- Loop of `flush` (block_scheduler.hpp:521-529): the tables, the number of `requests`, the commands; `fuel` is the number of evictable blocks. -/
def flushAux : Nat → Ctl → Option (Ctl × Nat × List Cmd)
  | 0, c => some (c, 0, [])
  | k + 1, c =>
    match Swap.popEvict c.mode c.evict with
    | none => some (c, 0, [])
    | some (x, rest) =>
      (cleanAsync { c with evict := rest } x.2).bind fun r =>
        (detach r.1 x.2).bind fun t =>
          (flushAux k (Swap.giveBack t.2.1 t.1)).map fun u => (u.1, u.2.1 + (if r.2.isEmpty then 0 else 1), r.2 ++ t.2.2 ++ u.2.2)

/-- `flush` (block_scheduler.hpp:519-535): all blocks are written, then the requests are waited for. -/
def flush (c : Ctl) : Option (Ctl × List Cmd) :=
  (flushAux c.evict.length c).map fun r => (r.1, r.2.2 ++ List.replicate r.2.1 .wait)

/-- What a call returns: nothing, a reference to an internal block, an external block, or an identifier. -/
inductive Ans
  | unit
  | int (p : Nat)
  | ext (e : Option Nat)
  | id (n : Nat)
deriving DecidableEq, Repr

/-- Calls (block_scheduler.hpp:408-535); of the client's own external blocks see `Ev.adopt`. -/
inductive Call
  | acquire (id : Nat) (uninit : Bool)
  | write (id : Nat) (x : List UInt8)
  | release (id : Nat) (dirty : Bool) (prio : Swap.SB → Nat)
  | deinit (id : Nat)
  | init (id : Nat) (e : Option Nat)
  | extract (id : Nat)
  | flush
  | alloc
  | free (id : Nat)
  | retag (m : Swap.Mode) (l : List (Nat × Nat))

/-- The effect of a call on the tables, its result, and its commands (block_scheduler.hpp:408-535, 677-754, 1052-1143); none: a failed `assert`. -/
def plan (c : Ctl) : Call → Option (Ans × Ctl × List Cmd)
  | .acquire id u => (acquire c id u).map fun r => (.int r.1, r.2)
  | .write id x =>
    if c.n ≤ id then none
    else if (c.blocks id).isAcquired then (c.blocks id).int.map fun p => (.unit, c, [.put p x])
    else none
  | .release id dirty pr => (release c id dirty pr).map fun r => (.unit, r)
  | .deinit id => (deinit c id).map fun r => (.unit, r)
  | .init id e => (Swap.initialize_ c id e).map fun c' => (.unit, c', [])
  | .extract id => (extract c id).map fun r => (.ext r.1, r.2)
  | .flush => (flush c).map fun r => (.unit, r)
  | .alloc => some (.id (Swap.alloc c).1, (Swap.alloc c).2, [])
  | .free id => (deinit c id).map fun r => (.unit, { r.1 with freeIds := id :: r.1.freeIds }, r.2)
  | .retag m l => if (l.map (·.2)).isPerm (c.evict.map (·.2)) then some (.unit, { c with mode := m, evict := l }, []) else none

/-- Sizes and places: the bytes of a block (`raw_size`, typed_block.hpp:284), the contents given by `fill_default` (block_scheduler.hpp:153), and the buffer
of the store that is internal block 0. -/
structure Cfg where
  raw : Nat
  dflt : List UInt8
  base : Nat

/-- The scheduler's tables, the store, the blocks behind the numbers, the numbers of the blocks that belong to the scheduler or were set aside for
it, the rest of the current call: commands, write requests not yet waited for, read request being waited for, and the call with its result. -/
structure Sys where
  c : Ctl
  d : Store.St
  bid : Nat → Mgr.Bid
  own : List Nat
  todo : List Cmd := []
  out : List Nat := []
  rd : Option Nat := none
  cur : Option (Call × Ans) := none

/-- How an event ends: `bad` is a failed `assert`, `throws` an exception (`io_error` of a request, request.hpp:114-118, or `bad_ext_alloc`). -/
inductive Out
  | ok (s : Sys)
  | no
  | bad
  | throws

/-- Events: a call, the next command (a request made by it gets number `r`; blocks are allocated with functor `f` and offset `o`), the return,
the client sets a block of its own aside for `initialize` (it knows that the contents are `v`) or takes it back, and the steps of the workers and of other clients. -/
inductive Ev
  | call (op : Call)
  | cmd (r : Nat) (f : Nat → Nat) (o : Nat)
  | ret
  | adopt (b : Mgr.Bid) (v : List UInt8)
  | drop (e : Nat)
  | env (op : Store.Op)

/-- The request has been served or canceled (`request::wait` returns, request_with_state.cpp:34-44). -/
def over (qid : Nat → Nat) (d : Store.St) (r : Nat) : Bool :=
  match d.reqs r with
  | none => false
  | some q => (d.qs (qid q.disk)).served.contains r || (d.qs (qid q.disk)).cancelled.contains r

/-- An event that makes a step of the store, or none. -/
def Sys.via (k : Queue.Kind) (qid : Nat → Nat) (s : Sys) (op : Store.Op) (g : Store.St → Sys) : Out :=
  match Store.step k qid s.d op with
  | some d => .ok (g d)
  | none => .no

/-- The next command (block_scheduler.hpp:70-77, 153, 157-192, 531-534; typed_block.hpp:299-327; block_manager.hpp:91-95). -/
def Sys.exec (k : Queue.Kind) (qid : Nat → Nat) (g : Cfg) (s : Sys) (r : Nat) (f : Nat → Nat) (o : Nat) : Cmd → List Cmd → Out
  | .new e, l =>
    match s.d.m.mgr.newBlocks f o [⟨.null, 0, g.raw, g.raw⟩] with
    | (_, [b], .ok ()) => s.via k qid (.mgr (.new f o [⟨.null, 0, g.raw, g.raw⟩])) fun d =>
        { s with d := d, bid := Store.upd s.bid e b, own := e :: s.own, todo := l }
    | _ => .throws
  | .delete e, l => s.via k qid (.mgr (.delete (s.bid e))) fun d => { s with d := d, own := s.own.filter (· != e), todo := l }
  | .write p e, l => s.via k qid (.io r true (s.bid e) (g.base + p)) fun d => { s with d := d, out := r :: s.out, todo := l }
  | .wait, l =>
    match s.out with
    | [] => .no
    | r' :: rest =>
      if over qid s.d r' then
        if s.d.failed.contains r' then .throws else .ok { s with out := rest, todo := l }
      else .no
  | .read p e, l =>
    match s.rd with
    | none => s.via k qid (.io r false (s.bid e) (g.base + p)) fun d => { s with d := d, rd := some r }
    | some r' =>
      if over qid s.d r' then
        if s.d.failed.contains r' then .throws else .ok { s with rd := none, todo := l }
      else .no
  | .fill p, l => s.via k qid (.fill (g.base + p) g.dflt) fun d => { s with d := d, todo := l }
  | .put p x, l => s.via k qid (.fill (g.base + p) x) fun d => { s with d := d, todo := l }

/-- One event (block_scheduler.hpp:408-535). -/
def Sys.step (k : Queue.Kind) (qid : Nat → Nat) (g : Cfg) (s : Sys) : Ev → Out
  | .call op =>
    match s.cur with
    | some _ => .no
    | none =>
      match plan s.c op with
      | none => .bad
      | some (a, c, l) => .ok { s with c := c, todo := l, cur := some (op, a) }
  | .cmd r f o =>
    match s.todo with
    | [] => .no
    | x :: l => s.exec k qid g r f o x l
  | .ret =>
    match s.todo with
    | [] => if s.cur.isSome then .ok { s with cur := none } else .no
    | _ :: _ => .no
  | .adopt b _ =>
    match s.cur with
    | some _ => .no
    | none =>
      let e := pick s.c.live
      .ok { s with c := { s.c with held := e :: s.c.held }, bid := Store.upd s.bid e b, own := e :: s.own }
  | .drop e =>
    match s.cur with
    | some _ => .no
    | none => if s.c.held.contains e then .ok { s with own := s.own.filter (· != e) } else .no
  | .env op => s.via k qid op fun d => { s with d := d }

/-- The start: a new scheduler (block_scheduler.hpp:371-378) in any state of the store. -/
def Sys.init (memory : Nat) (g : Cfg) (d : Store.St) : Sys :=
  { c := Swap.init memory g.raw (fun _ => ()) (fun _ => ()), d := d, bid := fun _ => ⟨.null, 0, 0, 0⟩, own := [] }

end Foxxll.SwapStore
