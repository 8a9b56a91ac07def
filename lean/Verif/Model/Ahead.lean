import Verif.Model.BlockScheduler
/-
Model of the block scheduling algorithm offline_lru_prefetching
(/repo/foxxll/mng/block_scheduler.hpp:1146-1891) with asynchronous I/O.

The state holds the block scheduler of BlockScheduler.lean (its field `evict` is not used).  The I/O
threads are represented by steps (`Disk`) that may happen in any order; `orc` says which ones happen at the points where
the client thread looks at what they have done (`sync`): at the begin of every call, after it
started a transfer or told a completion handler what to do, and before it waits.  I/O does not fail.  Accesses
of client and completion handler to the flags of `write_read_request` are sequentially consistent (the
code uses plain `bool`).

`none` is a failed `assert` or undefined behaviour.  Sets and maps are lists and functions; where the code
iterates over them the order is that of the code.
-/
namespace Foxxll.Ahead
open Foxxll.Swap (SB Env POp Elem)

/-- State of a write request: transfer not done; done; `write_done_soon = true` (block_scheduler.hpp:1201); handler has returned
(block_scheduler.hpp:1202-1203) and the request is finished. -/
inductive Phase
  | pending | moved | flagged | handled
  deriving DecidableEq

/-- `write_read_request` (block_scheduler.hpp:1179-1190) with its write request.  `target` is `block_to_start_read`; the
iterators are the numbers of the blocks.  `buf`, `ext`: internal and external block of the transfer. -/
structure Wrr where
  phase : Phase := .pending
  shallRead : Bool := false
  target : Nat := 0
  taker : Option Nat := none
  buf : Nat
  ext : Nat
  deriving DecidableEq

/-- `write_done_soon` (block_scheduler.hpp:1181) -/
def Wrr.doneSoon (w : Wrr) : Bool := w.phase == .flagged || w.phase == .handled

/-- `scheduled_block_meta` (block_scheduler.hpp:1207-1220); `giver` is `none` for `giver.first == false`; `ops` in order
of the calls (the back of the deque is the head). -/
structure Meta where
  reserved : Option Nat := none
  giver : Option Nat := none
  readReq : Option Nat := none
  ops : List POp
  deriving DecidableEq

/-- A read request whose transfer is not done (`read_async` in block_scheduler.hpp:1203, 1391). -/
structure Rd where
  id : Nat
  buf : Nat
  ext : Nat
  deriving DecidableEq

/-- Steps of the I/O threads: transfer and completion handler of the write request of a block, transfer of
a read request (completion handler: block_scheduler.hpp:1199-1204). -/
inductive Disk
  | write (g : Nat)
  | flag (g : Nat)
  | handle (g : Nat)
  | read (r : Nat)
  deriving DecidableEq

/-- The block scheduler with the members block_scheduler.hpp:558, 1223-1231; `reqs` counts the read requests. -/
structure St (D : Type) where
  b : Swap.St D
  freeEv : List Nat := []
  schedEv : List Nat := []
  sched : Nat → Option Meta := fun _ => none
  wsched : Nat → Option Wrr := fun _ => none
  pred : List Elem := []
  next : List Elem := []
  reads : List Rd := []
  reqs : Nat := 0
  orc : List (List Disk) := []

variable {D : Type}

/-- Assignment in a map (`scheduled_blocks`, `write_scheduled_blocks`, block_scheduler.hpp:1227-1230). -/
def put {α : Type} (f : Nat → Option α) (i : Nat) (x : Option α) : Nat → Option α := fun j => if j = i then x else f j

/-- Entry of `scheduled_blocks` (block_scheduler.hpp:1227). -/
def St.setMeta (s : St D) (i : Nat) (m : Option Meta) : St D := { s with sched := put s.sched i m }
/-- Entry of `write_scheduled_blocks` (block_scheduler.hpp:1230). -/
def St.setWrr (s : St D) (i : Nat) (w : Option Wrr) : St D := { s with wsched := put s.wsched i w }
/-- Element of `swappable_blocks` (block_scheduler.hpp:557). -/
def St.blk (s : St D) (i : Nat) : SB := s.b.blocks i
/-- Change of an element of `swappable_blocks` (block_scheduler.hpp:557). -/
def St.setBlk (s : St D) (i : Nat) (x : SB) : St D := { s with b := s.b.set i x }

/-- `std::set::insert` -/
def insertId (l : List Nat) (i : Nat) : List Nat := if i ∈ l then l else i :: l
/-- `std::set::erase` -/
def eraseId (l : List Nat) (i : Nat) : List Nat := l.filter (· != i)
/-- First element of a `std::set` (`pop_begin`, common/utils.hpp:133-139). -/
def firstId : List Nat → Option Nat
  | [] => none
  | x :: l => some (l.foldl min x)
/-- Elements of a set in order (iteration as in block_scheduler.hpp:1619-1620). -/
def inOrder (n : Nat) (l : List Nat) : List Nat := (List.range n).filter fun i => decide (i ∈ l)

/-- `swappable_block::read_async` (block_scheduler.hpp:157-164) of block `c`; the request is stored in the entry of block
`t` (block_scheduler.hpp:1203, 1391). -/
def startRead (s : St D) (c t : Nat) : Option (St D) :=
  match (s.blk c).int, (s.blk c).ext, s.sched t with
  | some p, some e, some m =>
    some { (s.setBlk c { s.blk c with dirty := false }).setMeta t (some { m with readReq := some s.reqs }) with
      reads := s.reads ++ [{ id := s.reqs, buf := p, ext := e }], reqs := s.reqs + 1 }
  | _, _, _ => none

/-- Transfer of a read request (block_scheduler.hpp:157-164). -/
def doRead (s : St D) (r : Nat) : St D :=
  match s.reads.find? (fun x => x.id == r) with
  | none => s
  | some x => { s with reads := s.reads.filter (fun y => y.id != r),
                       b := { s.b with mem := fun p => if p = x.buf then s.b.disk x.ext else s.b.mem p } }

/-- Transfer of the write request of block `g` (block_scheduler.hpp:172-183). -/
def doWrite (s : St D) (g : Nat) (w : Wrr) : St D :=
  { s.setWrr g (some { w with phase := .moved }) with b := { s.b with disk := fun e => if e = w.ext then s.b.mem w.buf else s.b.disk e } }

/-- The second half of `read_after_write` (block_scheduler.hpp:1202-1203). -/
def doHandle (s : St D) (g : Nat) (w : Wrr) : Option (St D) :=
  let s1 := s.setWrr g (some { w with phase := .handled })
  if w.shallRead then
    match w.taker with
    | none => none
    | some t => startRead s1 w.target t
  else some s1

/-- A step of the I/O threads; nothing happens if it is not possible (block_scheduler.hpp:1199-1204). -/
def diskStep (s : St D) : Disk → Option (St D)
  | .write g =>
    match s.wsched g with
    | some w => if w.phase = .pending then some (doWrite s g w) else some s
    | none => some s
  | .flag g =>
    match s.wsched g with
    | some w => if w.phase = .moved then some (s.setWrr g (some { w with phase := .flagged })) else some s
    | none => some s
  | .handle g =>
    match s.wsched g with
    | some w => if w.phase = .flagged then doHandle s g w else some s
    | none => some s
  | .read r => some (doRead s r)

/-- Several steps (of block_scheduler.hpp:1199-1204). -/
def diskSteps (s : St D) : List Disk → Option (St D)
  | [] => some s
  | x :: l => (diskStep s x).bind fun s1 => diskSteps s1 l

/-- What the I/O threads do meanwhile (no code of the client; the handlers are block_scheduler.hpp:1199-1204). -/
def sync (s : St D) : Option (St D) := diskSteps { s with orc := s.orc.tail } (s.orc.headD [])

/-- `clean_async` (block_scheduler.hpp:172-183) and `schedule_write` (block_scheduler.hpp:1238-1256); the result tells whether there is a write
request. -/
def scheduleWrite (E : Env D) (s : St D) (g : Nat) : Option (Bool × St D) :=
  let x := s.blk g
  if x.dirty then
    match x.int with
    | none => none
    | some p =>
      let e := x.ext.getD (E.pick s.b.live)
      match s.wsched g with
      | some _ => none
      | none => (sync ((s.setBlk g { x with ext := some e, dirty := false }).setWrr g (some { buf := p, ext := e }))).map fun s1 => (true, s1)
  else some (false, s)

/-- `wait_on_write` (block_scheduler.hpp:1397-1412): the remaining steps of the request, and its entry is erased. -/
def waitWrite (s : St D) (g : Nat) : Option (St D) :=
  match s.wsched g with
  | none => some s
  | some _ =>
    (sync s).bind fun s1 => (diskSteps s1 [.write g, .flag g, .handle g]).map fun s2 => s2.setWrr g none

/-- `wait_on_write` of the giver (block_scheduler.hpp:1417-1424). -/
def waitGiver (s : St D) (c : Nat) : Option (St D) :=
  match s.sched c with
  | none => none
  | some m =>
    match m.giver with
    | none => some s
    | some g => (waitWrite s g).bind fun s1 => (s1.sched c).map fun m1 => s1.setMeta c (some { m1 with giver := none })

/-- `wait_on_read` (block_scheduler.hpp:1429-1437). -/
def waitRead (s : St D) (c : Nat) : Option (St D) :=
  (waitGiver s c).bind fun s1 =>
    match s1.sched c with
    | none => none
    | some m =>
      match m.readReq with
      | none => some s1
      | some r => (sync s1).bind fun s2 =>
          ((doRead s2 r).sched c).map fun m2 => (doRead s2 r).setMeta c (some { m2 with readReq := none })

/-- block_scheduler.hpp:1301-1308 and 1309-1316 (block_scheduler.hpp:1334-1341 and 1342-1349): the write request of the new giver is told its taker. -/
def fixGiver (s : St D) (c : Nat) : Option (St D) :=
  match s.sched c with
  | none => none
  | some m =>
    match m.giver with
    | none => some s
    | some g =>
      match s.wsched g with
      | some w => some (s.setWrr g (some { w with taker := some c }))
      | none => some (s.setMeta c (some { m with giver := none }))

/-- block_scheduler.hpp:1300-1316, 1333-1349: exchange of the givers of `o` (the other block) and `c`. -/
def swapGivers (s : St D) (c o : Nat) : Option (St D) :=
  match s.sched c, s.sched o with
  | some mc, some mo =>
    let s1 := s.setMeta o (some { mo with giver := mc.giver })
    match s1.sched c with
    | none => none
    | some mc1 => (fixGiver (s1.setMeta c (some { mc1 with giver := mo.giver })) o).bind fun s2 => fixGiver s2 c
  | _, _ => none

/-- `detach_internal_block` (block_scheduler.hpp:202-209) -/
def detach (E : Env D) (s : St D) (c : Nat) : Option (Nat × St D) := (Swap.detach E s.b c).map fun r => (r.1, { s with b := r.2 })

/-- `attach_internal_block` (block_scheduler.hpp:194-198) -/
def attach (s : St D) (c : Nat) (p : Option Nat) : Option (St D) :=
  if (s.blk c).isInternal then none else some (s.setBlk c { s.blk c with int := p })

/-- block_scheduler.hpp:1362-1391: the end of `schedule_read`: through the completion handler of the giver, or at once. -/
def readOwn (s : St D) (c : Nat) : Option (St D) :=
  match s.sched c with
  | none => none
  | some m =>
    match m.giver with
    | none => startRead s c c
    | some g =>
      match s.wsched g with
      | none => startRead (s.setMeta c (some { m with giver := none })) c c
      | some w =>
        (sync (s.setWrr g (some { w with target := c, taker := some c, shallRead := true }))).bind fun s1 =>
          match s1.wsched g with
          | none => none
          | some w1 =>
            if w1.doneSoon then
              (waitWrite s1 g).bind fun s2 =>
                match s2.sched c with
                | none => none
                | some m2 =>
                  let s3 := s2.setMeta c (some { m2 with giver := none })
                  if m2.readReq.isSome then some s3 else startRead s3 c c
            else some s1

/-- block_scheduler.hpp:1318-1322: the internal blocks of `c` and `o` are exchanged. -/
def swapInternal (E : Env D) (s : St D) (c o : Nat) : Option (St D) :=
  (detach E s c).bind fun r => (detach E r.2 o).bind fun q => (attach q.2 c (some q.1)).bind fun s1 => attach s1 o (some r.1)

/-- block_scheduler.hpp:1351-1355: `c` gets the reserved block of `o`. -/
def swapReserved (E : Env D) (s : St D) (c o : Nat) : Option (St D) :=
  (detach E s c).bind fun r =>
    match r.2.sched o with
    | none => none
    | some mo => (attach r.2 c mo.reserved).bind fun s1 => (s1.sched o).map fun mo1 => s1.setMeta o (some { mo1 with reserved := some r.1 })

/-- `schedule_read` (block_scheduler.hpp:1285-1392) with `try_interrupt_read` (block_scheduler.hpp:1262-1280).  The recursion (block_scheduler.hpp:1325) is limited by
`fuel`; it ends at the second level (shown in the proofs). -/
def scheduleRead (E : Env D) : Nat → St D → Nat → Option (St D)
  | 0, _, _ => none
  | fuel + 1, s, c =>
    match s.wsched c with
    | none => readOwn s c
    | some w =>
      match w.taker with
      | none => none
      | some o =>
        if w.shallRead then
          (sync (s.setWrr c (some { w with shallRead := false }))).bind fun s1 =>
            match s1.wsched c with
            | none => none
            | some w1 =>
              if w1.doneSoon then
                (waitWrite s1 c).bind fun s2 =>
                  match s2.sched o with
                  | none => none
                  | some mo =>
                    if mo.readReq.isSome then readOwn s2 c
                    else (swapGivers s2 c o).bind fun s3 => (swapInternal E s3 c o).bind fun s4 => scheduleRead E fuel s4 o
              else (swapGivers s1 c o).bind fun s3 => (swapInternal E s3 c o).bind fun s4 => scheduleRead E fuel s4 o
        else (swapGivers s c o).bind fun s3 => swapReserved E s3 c o

/-- An operation for which the block keeps its internal block (block_scheduler.hpp:1457-1474). -/
def keepOp (dirty : Bool) : POp → Bool
  | .acquire | .acquireUninit => true
  | .deinit => dirty
  | _ => false

/-- `shall_keep_internal_block` (block_scheduler.hpp:1450-1476); `ops` are the operations considered. -/
def shallKeep (s : St D) (c : Nat) (ops : List POp) : Bool := ops.any (keepOp (s.blk c).dirty)

/-- `shall_be_cleaned` (block_scheduler.hpp:1479-1503) -/
def shallClean : List POp → Bool
  | [] => false
  | .acquire :: l | .acquireUninit :: l | .release :: l => shallClean l
  | .releaseDirty :: _ | .deinit :: _ | .init :: _ => false
  | .extract :: _ => true

/-- `shall_be_read` (block_scheduler.hpp:1505-1511) -/
def shallRead (s : St D) (c : Nat) (ops : List POp) : Bool := (s.blk c).isInitialized && ops.head? == some .acquire

/-- `operation_done` (block_scheduler.hpp:1513-1521) -/
def opDone (s : St D) (c : Nat) : Option (St D) :=
  match s.sched c with
  | none => none
  | some m =>
    match m.ops with
    | [] => none
    | [_] => if m.giver.isSome then none else some (s.setMeta c none)
    | _ :: l => some (s.setMeta c (some { m with ops := l }))

/-- block_scheduler.hpp:1542-1550: the operation is listed. -/
def listOp (s : St D) (x : Elem) : St D :=
  match s.sched x.id with
  | none => s.setMeta x.id (some { ops := [x.op] })
  | some m => s.setMeta x.id (some { m with ops := m.ops ++ [x.op] })

/-- block_scheduler.hpp:1576-1579: and removed again. -/
def unlistOp (s : St D) (x : Elem) : St D :=
  match s.sched x.id with
  | none => s
  | some m => if m.ops.length ≤ 1 then s.setMeta x.id none else s.setMeta x.id (some { m with ops := m.ops.dropLast })

/-- block_scheduler.hpp:1568-1572, 1583-1595: an internal block for `c`; `false` if there is none. -/
def reserve (E : Env D) (s : St D) (c : Nat) : Option (Bool × St D) :=
  match Swap.getFreeBs s.b with
  | (some p, b1) => (s.sched c).map fun m => (true, { s with b := b1 }.setMeta c (some { m with reserved := some p }))
  | (none, _) =>
    match firstId s.freeEv with
    | none => some (false, s)
    | some g =>
      if ((s.sched g).map fun m => shallKeep s g m.ops) = some true then none
      else
        (scheduleWrite E { s with freeEv := eraseId s.freeEv g } g).bind fun r =>
        (detach E r.2 g).bind fun q =>
        (q.2.sched c).bind fun m =>
          let s1 := q.2.setMeta c (some { m with reserved := some q.1, giver := if r.1 then some g else none })
          if r.1 then (s1.wsched g).map fun w => (true, s1.setWrr g (some { w with taker := some c })) else some (true, s1)

/-- block_scheduler.hpp:1597-1606: the reserved block is attached and the read request is scheduled. -/
def prefetch (E : Env D) (s : St D) (c : Nat) : Option (St D) :=
  match s.sched c with
  | none => none
  | some m => (attach s c m.reserved).bind fun s1 =>
      scheduleRead E (s.b.n + 1) { s1.setMeta c (some { m with reserved := none }) with schedEv := insertId s.schedEv c } c

/-- block_scheduler.hpp:1554-1608: `acquire` is scheduled; `false` if there is no internal block for it. -/
def scheduleAcquire (E : Env D) (s : St D) (c : Nat) : Option (Bool × St D) :=
  if (s.blk c).isInternal then
    some (true, if c ∈ s.freeEv then { s with freeEv := eraseId s.freeEv c, schedEv := insertId s.schedEv c } else s)
  else
    match s.sched c with
    | none => none
    | some m =>
      if m.reserved.isSome then some (true, s)
      else (reserve E s c).bind fun r =>
        if r.1 then
          match r.2.sched c with
          | none => none
          | some m1 => if shallRead r.2 c m1.ops then (prefetch E r.2 c).map fun s1 => (true, s1) else some (true, r.2)
        else some (false, r.2)

/-- One turn of the loop of `schedule_next_operations` (block_scheduler.hpp:1539-1618). -/
def scheduleOne (E : Env D) (s : St D) (x : Elem) : Option (Bool × St D) :=
  if s.b.n ≤ x.id then none
  else
    match x.op with
    | .acquire | .acquireUninit => (scheduleAcquire E (listOp s x) x.id).map fun r => if r.1 then r else (false, unlistOp r.2 x)
    | .deinit =>
      let s1 := listOp s x
      some (true, if (s1.blk x.id).dirty ∧ x.id ∈ s1.freeEv then
        { s1 with freeEv := eraseId s1.freeEv x.id, schedEv := insertId s1.schedEv x.id } else s1)
    | _ => some (true, listOp s x)

/-- block_scheduler.hpp:1619-1624: the evictable blocks are written. -/
def writeAll (E : Env D) : List Nat → St D → Option (St D)
  | [], s => some s
  | g :: l, s =>
    if (s.wsched g).isSome then writeAll E l s else (scheduleWrite E s g).bind fun r => writeAll E l r.2

/-- `schedule_next_operations` (block_scheduler.hpp:1537-1625) -/
def scheduleLoop (E : Env D) : List Elem → St D → Option (St D)
  | [], s => writeAll E (inOrder s.b.n s.freeEv) { s with next := [] }
  | x :: l, s => (scheduleOne E { s with next := x :: l } x).bind fun r => if r.1 then scheduleLoop E l { r.2 with next := l } else some r.2

/-- `schedule_next_operations` (block_scheduler.hpp:1537-1625). -/
def scheduleNext (E : Env D) (s : St D) : Option (St D) := scheduleLoop E s.next s

/-- Constructor (block_scheduler.hpp:1627-1637, 1669-1677): the evictable blocks of the algorithm before are taken over. -/
def start (E : Env D) (b : Swap.St D) (seq : List Elem) (orc : List (List Disk)) : Option (St D) :=
  scheduleNext E { b := { b with evict := [] }, freeEv := b.evict.map (·.2), pred := seq, next := seq, orc := orc }

/-- The assertions at the begin of every call (block_scheduler.hpp:1703-1715, 1753-1765, 1814-1820, 1856-1862, 1878-1884) and
`pop_front`. -/
def begin_ (s : St D) (op : POp) (c : Nat) : Option (St D) :=
  match s.pred with
  | [] => none
  | x :: l =>
    if x.op = op ∧ x.id = c ∧ ((s.sched c).bind fun m => m.ops.head?) = some op then sync { s with pred := l } else none

/-- `acquire` (block_scheduler.hpp:1701-1749); the result is the number of the internal block. -/
def acquire (E : Env D) (s : St D) (c : Nat) (uninit : Bool) : Option (Nat × St D) :=
  (begin_ s (if uninit then .acquireUninit else .acquire) c).bind fun s0 =>
  (if (s0.blk c).isInternal then
    if (s0.blk c).isAcquired then some s0
    else if c ∈ s0.schedEv then waitRead { s0 with schedEv := eraseId s0.schedEv c } c else none
  else if !uninit && (s0.blk c).isInitialized then none
  else
    (waitGiver s0 c).bind fun s1 =>
      match s1.sched c with
      | none => none
      | some m =>
        match m.reserved with
        | none => none
        | some p =>
          let s2 := s1.setMeta c (some { m with reserved := none })
          let s3 := s2.setBlk c { s2.blk c with int := some p }
          some (if uninit then s3 else { s3 with b := { s3.b with mem := fun q => if q = p then E.fill (s3.b.mem p) else s3.b.mem q } })).bind fun s4 =>
  match (s4.blk c).int with
  | none => none
  | some p => (opDone (s4.setBlk c { s4.blk c with refs := (s4.blk c).refs + 1 }) c).map fun s5 => (p, s5)

/-- block_scheduler.hpp:1774-1792: the last release of a block with data. -/
def releaseData (E : Env D) (s : St D) (c : Nat) (ops : List POp) : Option (St D) :=
  if shallKeep s c ops then
    let s1 := { s with schedEv := insertId s.schedEv c }
    if shallClean ops then (scheduleWrite E s1 c).map (·.2) else some s1
  else
    let s1 := { s with freeEv := insertId s.freeEv c }
    if s1.next ≠ [] then scheduleNext E s1
    else if (s1.wsched c).isSome then some s1
    else (scheduleWrite E s1 c).map (·.2)

/-- block_scheduler.hpp:1796-1806: the last release of a block without data. -/
def releaseNoData (E : Env D) (s : St D) (c : Nat) (ops : List POp) : Option (St D) :=
  (detach E s c).bind fun r =>
    if shallKeep s c ops then (r.2.sched c).map fun m => r.2.setMeta c (some { m with reserved := some r.1 })
    else
      let s1 := { r.2 with b := Swap.giveBack r.2.b r.1 }
      if s1.next ≠ [] then scheduleNext E s1 else some s1

/-- `release` (block_scheduler.hpp:1751-1810) -/
def release (E : Env D) (s : St D) (c : Nat) (dirty : Bool) : Option (St D) :=
  (begin_ s (if dirty then .releaseDirty else .release) c).bind fun s0 =>
    match s0.sched c with
    | none => none
    | some m =>
      let x := s0.blk c
      if x.isAcquired then
        let y := { x with dirty := dirty || x.dirty, refs := x.refs - 1 }
        let s1 := s0.setBlk c y
        (if y.isAcquired then some s1
         else if y.dirty || y.isExternal then releaseData E s1 c m.ops.tail
         else releaseNoData E s1 c m.ops.tail).bind fun s2 => opDone s2 c
      else none

/-- block_scheduler.hpp:1823-1837: the block is taken out of the set it is in. -/
def unlistBlock (s : St D) (c : Nat) (ops : List POp) : Option (St D) :=
  if (s.blk c).isEvictable then
    if shallKeep s c ops then
      if c ∈ s.schedEv then some { s with schedEv := eraseId s.schedEv c }
      else if c ∈ s.freeEv then some { s with freeEv := eraseId s.freeEv c } else none
    else if c ∈ s.freeEv then some { s with freeEv := eraseId s.freeEv c } else none
  else some s

/-- `deinitialize` (block_scheduler.hpp:1812-1852, 214-225) -/
def deinit (E : Env D) (s : St D) (c : Nat) : Option (St D) :=
  (begin_ s .deinit c).bind fun s0 =>
    match s0.sched c with
    | none => none
    | some m =>
      (unlistBlock s0 c m.ops).bind fun s1 =>
        if (s1.blk c).isAcquired then none
        else
          let s2 := s1.setBlk c {}
          (match (s1.blk c).int with
          | none => some s2
          | some p =>
            if shallKeep s2 c m.ops.tail then some (s2.setMeta c (some { m with reserved := some p }))
            else
              let s3 := { s2 with b := Swap.giveBack s2.b p }
              if s3.next ≠ [] then scheduleNext E s3 else some s3).bind fun s4 => opDone s4 c

/-- `initialize` (block_scheduler.hpp:1854-1874, 229-233) with an external block of the client. -/
def initialize_ (E : Env D) (s : St D) (c : Nat) (e : Option Nat) : Option (St D) :=
  (begin_ s .init c).bind fun s0 =>
    match s0.sched c with
    | none => none
    | some m =>
      if (s0.blk c).isInitialized then none
      else
        let s1 := { s0 with b := { (s0.b.set c { s0.blk c with ext := e }) with held := s0.b.held.filter (fun x => some x != e) } }
        (if shallRead s1 c m.ops.tail then prefetch E s1 c else some s1).bind fun s2 => opDone s2 c

/-- `extract_external_block` (block_scheduler.hpp:1876-1890, 237-243); `wait_on_write` is called for the block. -/
def extract (s : St D) (c : Nat) : Option (Option Nat × St D) :=
  (begin_ s .extract c).bind fun s0 => (waitWrite s0 c).bind fun s1 => (opDone s1 c).bind fun s2 =>
    if (s2.blk c).isInternal then none
    else
      let x := s2.blk c
      some (x.ext, { s2 with b := { (s2.b.set c { x with ext := none }) with held := x.ext.toList ++ s2.b.held } })

/-- Is a completion handler about to use the stored iterator into `swappable_blocks` (block_scheduler.hpp:1183, 1203)? -/
def iteratorStored (s : St D) : Bool :=
  (List.range s.b.n).any fun g => ((s.wsched g).map fun w => w.shallRead && w.phase != .handled) == some true

/-- `allocate_swappable_block` (block_scheduler.hpp:465-482): a new block may move the vector `swappable_blocks`. -/
def alloc (s : St D) : Option (Nat × St D) :=
  (sync s).bind fun s0 =>
    if s0.b.freeIds = [] ∧ iteratorStored s0 then none
    else some ((Swap.alloc s0.b).1, { s0 with b := (Swap.alloc s0.b).2 })

/-- `free_swappable_block` (block_scheduler.hpp:486-490) -/
def freeBlock (E : Env D) (s : St D) (c : Nat) : Option (St D) :=
  (deinit E s c).map fun s1 => { s1 with b := { s1.b with freeIds := c :: s1.b.freeIds } }

/-- block_scheduler.hpp:1654-1661: the scheduled blocks. -/
def stopBlocks : List Nat → St D → Option (St D)
  | [], s => some s
  | c :: l, s =>
    match s.sched c with
    | none => stopBlocks l s
    | some _ => (waitRead s c).bind fun s1 =>
        match s1.sched c with
        | none => none
        | some m =>
          let s2 := match m.reserved with
            | none => s1
            | some p => { s1 with b := Swap.giveBack s1.b p }
          stopBlocks l (s2.setMeta c none)

/-- block_scheduler.hpp:1662-1666: the write requests. -/
def stopWrites : List Nat → St D → Option (St D)
  | [], s => some s
  | g :: l, s => (waitWrite s g).bind fun s1 => stopWrites l s1

/-- `deinit` (block_scheduler.hpp:1639-1667) -/
def stop (s : St D) : Option (St D) :=
  (stopBlocks (List.range s.b.n) { s with freeEv := s.freeEv ++ s.schedEv.filter (fun i => decide (i ∉ s.freeEv)), schedEv := [] }).bind fun s1 =>
    stopWrites (List.range s1.b.n) s1

/-- The switch to another algorithm (block_scheduler.hpp:1692-1699): the scheduler with its evictable blocks in the order in which they
are taken over. -/
def toOnline (s : St D) : Option (Swap.St D) :=
  (stop s).map fun s1 => { s1.b with mode := .lru, evict := (inOrder s1.b.n s1.freeEv).map fun i => (0, i) }

/-- block_scheduler.hpp:522-529 -/
def detachAll (E : Env D) : List Nat → St D → Option (St D)
  | [], s => some s
  | g :: l, s => (detach E s g).bind fun r => detachAll E l { r.2 with b := Swap.giveBack r.2.b r.1, freeEv := eraseId r.2.freeEv g }

/-- `flush` (block_scheduler.hpp:519-535) with this algorithm. -/
def flush (E : Env D) (s : St D) : Option (St D) := (stop s).bind fun s1 => detachAll E (inOrder s1.b.n s1.freeEv) s1

end Foxxll.Ahead
