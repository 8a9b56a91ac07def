import Verif.Model.BlockScheduler
/-
The block scheduler (`Model/BlockScheduler.lean`, /repo/foxxll/mng/block_scheduler.hpp) when calls fail: requests end with
an `io_error`, which `request::wait` throws (request_with_state.cpp:34-44, request.hpp:114-118), `block_manager::new_block` throws `bad_ext_alloc`
(disk_block_allocator.hpp:179-184) and `new` throws `std::bad_alloc`.  An exception leaves all functions; what has been done
before it stays done.

The algorithms are online_lru and offline_lfd.  The queues are those of request_queue_impl_1q and request_queue_impl_qwqr: writes of the
same external block are served in the order of their submission, a read may overtake them (qwqr).  `flush` is the only method that
leaves requests behind, if it throws.  A failed request leaves anything in its buffer or external block.

Simplifications: a request fails when it is waited for (an exception at its submission has the same effect on the scheduler); the
containers of the scheduler do not run out of memory; `fill_default` does not throw; the client's own writes succeed.
-/
namespace Foxxll.SwapFail
open Foxxll.Swap

variable {D : Type}

/-- The end of a request (serving_request.cpp:51-58): served, or failed, leaving `d` in its buffer or external block. -/
inductive Ans (D : Type)
  | ok
  | fail (d : D)

/-- `Swap.Env` and what happens at the `k`-th attempt to do something that can fail: the end of a request (serving_request.cpp:51-58),
whether a read overtakes writes (request_queue_impl_qwqr.cpp:85-86), whether `new_block` finds space (disk_block_allocator.hpp:179-184),
whether `new` finds memory (block_scheduler.hpp:351). -/
structure Env (D : Type) extends Swap.Env D where
  ans : Nat → Ans D
  over : Nat → Bool
  space : Nat → Bool
  mem : Nat → Bool

/-- The scheduler, the number of attempts so far, and the requests still in flight: (internal block, external block) in the order of their submission
(`requests` in block_scheduler.hpp:521 after an exception). -/
structure FSt (D : Type) where
  st : St D
  k : Nat := 0
  pend : List (Nat × Nat) := []

/-- How a call ends: normally, with an exception (`hit`: identifiers of the blocks whose request failed or was not waited for), or with a failed
`assert` or undefined behaviour (block_scheduler.hpp:636, 204). -/
inductive R (D : Type) (α : Type)
  | ok (a : α) (s : FSt D)
  | throws (hit : List Nat) (s : FSt D)
  | ub

/-- Sequence of two statements, the second is not executed after an exception (block_scheduler.hpp:202-209). -/
def R.bind {α β : Type} : R D α → (α → FSt D → R D β) → R D β
  | .ok a s, f => f a s
  | .throws h s, _ => .throws h s
  | .ub, _ => .ub

/-- `disk` with new contents of external block `e` (the effect of serving_request.cpp:53 on a write). -/
def setDisk (s : St D) (e : Nat) (d : D) : St D := { s with disk := fun j => if j = e then d else s.disk j }

/-- `mem` with new contents of internal block `p` (the effect of serving_request.cpp:53 on a read). -/
def setMem (s : St D) (p : Nat) (d : D) : St D := { s with mem := fun j => if j = p then d else s.mem j }

/-- A request in flight is served (serving_request.cpp:40-63); nobody waits for it. -/
def late (E : Env D) (s : FSt D) (x : Nat × Nat) : FSt D :=
  match E.ans s.k with
  | .ok => { s with k := s.k + 1, st := setDisk s.st x.2 (s.st.mem x.1) }
  | .fail d => { s with k := s.k + 1, st := setDisk s.st x.2 d }

/-- The requests of external block `e` in flight are served in order, before any later write (request_queue_impl_1q.cpp:62-88,
request_queue_impl_qwqr.cpp:61-106). -/
def settle (E : Env D) (s : FSt D) (e : Nat) : FSt D :=
  (s.pend.filter (fun x => x.2 == e)).foldl (late E) { s with pend := s.pend.filter (fun x => x.2 != e) }

/-- Write internal block `p` to external block `e` and wait (block_scheduler.hpp:182, 189-190); `id` is the swappable block. -/
def writeSync (E : Env D) (s : FSt D) (id p e : Nat) : R D Unit :=
  let s1 := settle E s e
  match E.ans s1.k with
  | .ok => .ok () { s1 with k := s1.k + 1, st := setDisk s1.st e (s1.st.mem p) }
  | .fail d => .throws [id] { s1 with k := s1.k + 1, st := setDisk s1.st e d }

/-- Read external block `e` to internal block `p` and wait (block_scheduler.hpp:163, 167-168). -/
def readSync (E : Env D) (s : FSt D) (id e p : Nat) : R D Unit :=
  let s1 := if E.over s.k then s else settle E s e
  match E.ans s1.k with
  | .ok => .ok () { s1 with k := s1.k + 1, st := setMem s1.st p (s1.st.disk e) }
  | .fail d => .throws [id] { s1 with k := s1.k + 1, st := setMem s1.st p d }

/-- `get_external_block` (block_scheduler.hpp:70-71) if there is none (176-177). -/
def needExt (E : Env D) (s : FSt D) (id : Nat) : R D Nat :=
  match (s.st.blocks id).ext with
  | some e => .ok e s
  | none =>
    if E.space s.k then
      let e := E.pick s.st.live
      .ok e { s with k := s.k + 1, st := s.st.set id { s.st.blocks id with ext := some e } }
    else .throws [] { s with k := s.k + 1 }

/-- `clean_async` without the request (block_scheduler.hpp:172-181): the external block; `dirty` is reset before the request is made. -/
def startClean (E : Env D) (s : FSt D) (id : Nat) : R D Nat :=
  (needExt E s id).bind fun e s1 => .ok e { s1 with st := s1.st.set id { s1.st.blocks id with dirty := false } }

/-- `clean_sync` (block_scheduler.hpp:186-191). -/
def clean (E : Env D) (s : FSt D) (id : Nat) : R D Unit :=
  if (s.st.blocks id).dirty then
    (startClean E s id).bind fun e s1 =>
      match (s1.st.blocks id).int with
      | none => .ub
      | some p => writeSync E s1 id p e
  else .ok () s

/-- The rest of `detach_internal_block` (block_scheduler.hpp:206-208). -/
def takeInt (s : FSt D) (id : Nat) : R D Nat :=
  match (s.st.blocks id).int with
  | none => .ub
  | some p => .ok p { s with st := s.st.set id { s.st.blocks id with int := none } }

/-- `detach_internal_block` (block_scheduler.hpp:202-209). -/
def detach (E : Env D) (s : FSt D) (id : Nat) : R D Nat :=
  if (s.st.blocks id).isEvictable then (clean E s id).bind fun _ s1 => takeInt s1 id else .ub

/-- `block_scheduler::get_free_internal_block` (block_scheduler.hpp:337-362): `remaining_internal_blocks` is lowered before `new`
(350-351); `none`: there is no block. -/
def getFreeBs (E : Env D) (s : FSt D) : R D (Option Nat) :=
  match s.st.free with
  | _ :: _ => .ok (Swap.getFreeBs s.st).1 { s with st := (Swap.getFreeBs s.st).2 }
  | [] =>
    if 0 < s.st.remaining then
      if E.mem s.k then .ok (Swap.getFreeBs s.st).1 { s with k := s.k + 1, st := (Swap.getFreeBs s.st).2 }
      else .throws [] { s with k := s.k + 1, st := { s.st with remaining := s.st.remaining - min allocAtOnce s.st.remaining } }
    else .ok none s

/-- `get_free_internal_block` of the algorithms (block_scheduler.hpp:630-638, 968-976). -/
def getFree (E : Env D) (s : FSt D) : R D Nat :=
  (getFreeBs E s).bind fun o s1 =>
    match o with
    | some p => .ok p s1
    | none =>
      match popEvict s1.st.mode s1.st.evict with
      | none => .ub
      | some (x, rest) => detach E { s1 with st := { s1.st with evict := rest } } x.2

/-- `attach_internal_block` (block_scheduler.hpp:194-198). -/
def attach (s : FSt D) (id p : Nat) : FSt D := { s with st := s.st.set id { s.st.blocks id with int := some p } }

/-- `swappable_block::acquire` (block_scheduler.hpp:124-129). -/
def addRef (s : FSt D) (id : Nat) : FSt D := { s with st := s.st.set id { s.st.blocks id with refs := (s.st.blocks id).refs + 1 } }

/-- `acquire` (block_scheduler.hpp:677-713, 1052-1088): the number of the internal block. -/
def acquire (E : Env D) (s : FSt D) (id : Nat) (uninit : Bool) : R D Nat :=
  if s.st.n ≤ id then .ub
  else
    match (s.st.blocks id).int with
    | some p =>
      let s1 := if (s.st.blocks id).isAcquired then s else { s with st := { s.st with evict := eraseEvict s.st.evict id } }
      .ok p (addRef s1 id)
    | none =>
      if (s.st.blocks id).isInitialized then
        (getFree E s).bind fun p s1 =>
          let s2 := attach s1 id p
          if uninit then .ok p (addRef s2 id)
          else
            match (s2.st.blocks id).ext with
            | none => .ub
            | some e =>
              (readSync E { s2 with st := s2.st.set id { s2.st.blocks id with dirty := false } } id e p).bind fun _ s3 => .ok p (addRef s3 id)
      else
        (getFree E s).bind fun p s1 =>
          let s2 := addRef (attach s1 id p) id
          .ok p (if uninit then s2 else { s2 with st := setMem s2.st p (E.fill (s2.st.mem p)) })

/-- `return_free_internal_block` (block_scheduler.hpp:365-366). -/
def giveBack (s : FSt D) (p : Nat) : FSt D := { s with st := Swap.giveBack s.st p }

/-- `release` (block_scheduler.hpp:715-729, 1105-1116), `prio` as in `Swap.releaseWith`. -/
def release (E : Env D) (s : FSt D) (id : Nat) (dirty : Bool) (prio : SB → Nat) : R D Unit :=
  if s.st.n ≤ id then .ub
  else
    let b := s.st.blocks id
    if b.isAcquired then
      let b1 := { b with dirty := dirty || b.dirty, refs := b.refs - 1 }
      let s1 := { s with st := s.st.set id b1 }
      if b1.isAcquired then .ok () s1
      else if b1.dirty || b1.isExternal then .ok () { s1 with st := { s1.st with evict := insertEvict s1.st.evict (prio b1) id } }
      else (detach E s1 id).bind fun p s2 => .ok () (giveBack s2 p)
    else .ub

/-- A method without I/O (block_scheduler.hpp:437-438, 465-490, 731-744); these are as in `Swap`. -/
def lift (s : FSt D) (o : Option (St D)) : R D Unit :=
  match o with
  | none => .ub
  | some t => .ok () { s with st := t }

/-- `extract_external_block` (block_scheduler.hpp:746-754, 1135-1143). -/
def extract (E : Env D) (s : FSt D) (id : Nat) : R D (Option Nat) :=
  if s.st.n ≤ id then .ub
  else
    let b := s.st.blocks id
    let s1 := if b.isEvictable then { s with st := { s.st with evict := eraseEvict s.st.evict id } } else s
    let r : R D Unit := if b.isInternal then (detach E s1 id).bind fun p s2 => .ok () (giveBack s2 p) else .ok () s1
    r.bind fun _ s2 =>
      let b := s2.st.blocks id
      .ok b.ext { s2 with st := { (s2.st.set id { b with ext := none }) with held := b.ext.toList ++ s2.st.held } }

/-- A request made by `flush`: the swappable, internal and external block (block_scheduler.hpp:525-527). -/
structure Made where
  id : Nat
  p : Nat
  e : Nat

/-- An exception while requests are in flight (block_scheduler.hpp:519-535): nobody waits for them any more. -/
def abandon (s : FSt D) (hit : List Nat) (l : List Made) : R D (List Made) :=
  .throws (hit ++ l.map (·.id)) { s with pend := s.pend ++ l.map (fun m => (m.p, m.e)) }

/-- One iteration of the first loop of `flush` (block_scheduler.hpp:524-528) for block `id`. -/
def flushOne (E : Env D) (s : FSt D) (id : Nat) (l : List Made) : R D (List Made) :=
  if (s.st.blocks id).dirty then
    match startClean E s id with
    | .ub => .ub
    | .throws hit s1 => abandon s1 hit l
    | .ok e s1 =>
      match (s1.st.blocks id).int with
      | none => .ub
      | some p =>
        match detach E s1 id with
        | .ok q s2 => .ok (l ++ [⟨id, p, e⟩]) (giveBack s2 q)
        | .throws hit s2 => abandon s2 hit (l ++ [⟨id, p, e⟩])
        | .ub => .ub
  else
    match detach E s id with
    | .ok q s2 => .ok l (giveBack s2 q)
    | .throws hit s2 => abandon s2 hit l
    | .ub => .ub

/-- The first loop of `flush` (block_scheduler.hpp:522-529); `fuel` is the number of evictable blocks. -/
def flushLoop (E : Env D) : Nat → FSt D → List Made → R D (List Made)
  | 0, s, l => .ok l s
  | n + 1, s, l =>
    match popEvict s.st.mode s.st.evict with
    | none => .ok l s
    | some (x, rest) => (flushOne E { s with st := { s.st with evict := rest } } x.2 l).bind fun l1 s1 => flushLoop E n s1 l1

/-- The second loop of `flush` (block_scheduler.hpp:530-534), on the reversed list of requests. -/
def flushWait (E : Env D) : List Made → FSt D → R D Unit
  | [], s => .ok () s
  | m :: rest, s =>
    match writeSync E s m.id m.p m.e with
    | .ok _ s1 => flushWait E rest s1
    | .throws hit s1 => .throws (hit ++ rest.reverse.map (·.id)) { s1 with pend := s1.pend ++ rest.reverse.map (fun m => (m.p, m.e)) }
    | .ub => .ub

/-- `flush` (block_scheduler.hpp:519-535). -/
def flush (E : Env D) (s : FSt D) : R D Unit :=
  (flushLoop E s.st.evict.length s []).bind fun l s1 => flushWait E l.reverse s1

/-- The `i`-th request in flight is served, if no earlier write of its external block is (serving_request.cpp:40-63). -/
def lateAt (E : Env D) (s : FSt D) (i : Nat) : Option (FSt D) :=
  match s.pend[i]? with
  | none => none
  | some x => if (s.pend.take i).all (fun y => y.2 != x.2) then some (late E { s with pend := s.pend.eraseIdx i } x) else none

/-- The client writes data to an external block of its own, for `initialize` (the argument of block_scheduler.hpp:437-438). -/
def clientBlock (E : Env D) (s : FSt D) (d : D) : Nat × FSt D :=
  let e := E.pick s.st.live
  let s1 := settle E s e
  (e, { s1 with st := { setDisk s1.st e d with held := e :: s1.st.held } })

/-- The end of the scheduler (block_scheduler.hpp:406-410): the internal blocks are deallocated; false: while a request
uses one of them. -/
def endOk (s : FSt D) : Bool := s.pend.isEmpty

end Foxxll.SwapFail
