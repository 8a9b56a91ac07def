import Verif.Model.Store
import Verif.Model.Linuxaio
/-
The way of a block's data on disks of type `linuxaio_file`: blocks are allocated by the block manager
(`Model/Manager.lean`), `BID::read`/`write` make a `linuxaio_request` for the file of the block's disk
(/repo/foxxll/mng/bid.hpp:80-92, /repo/foxxll/io/linuxaio_file.cpp:22-46), the request is put into a `linuxaio_queue`
(`Model/Linuxaio.lean`), its threads hand it to the kernel (`linuxaio_request::fill_control_block`,
/repo/foxxll/io/linuxaio_request.cpp:54-76), and the kernel transfers the data between the buffer and the file while
the operation is in flight.

The kernel transfers the bytes of all operations in flight in any order and interleaved, also more than once; when it
reports an operation as complete without error all its bytes have been transferred.  An operation it reports as failed or short may
have transferred any part.  Simplifications as in `Model/Store.lean`: `set_size` does not fail, all
growths of a disk by one call of `new_blocks` are one `set_size`.
-/
namespace Foxxll.AioStore
open Foxxll
open Foxxll.Store (Req upd bytesOf grown)

/-- The block manager with the client's blocks, the files of the disks, the queues, the requests made so far (request.hpp:62-71),
the client's buffers, and for each request the bytes the kernel has transferred. -/
structure St where
  m : Mgr.MSys
  files : Nat → Files.File
  qs : Nat → Aio.St
  reqs : Nat → Option Req
  mem : Nat → List UInt8
  /-- record of what the kernel did -/
  moved : Nat → List Nat

/-- Calls of the client (block_manager.hpp:164-268, bid.hpp:80-92, linuxaio_request.cpp:80-90) and steps of the threads and of
the kernel. -/
inductive Op
  /-- `new_blocks` or `delete_block` -/
  | mgr (op : Mgr.MOp)
  /-- the client fills a buffer -/
  | fill (buf : Nat) (data : List UInt8)
  /-- `bid.write(buffer, size)` or `bid.read(buffer, size)`: request `r` -/
  | io (r : Nat) (write : Bool) (b : Mgr.Bid) (buf : Nat)
  /-- `cancel` of request `r`; `ok`: the kernel would confirm the cancellation of an operation in flight -/
  | cancel (r : Nat) (ok : Bool)
  /-- the kernel transfers byte `j` of request `r`, an operation of queue `i` in flight -/
  | kernel (i r j : Nat)
  /-- another step of the threads or callers in queue `i` -/
  | run (i : Nat) (op : Aio.Op)

/-- A step on queue `i` (linuxaio_queue.cpp:69-308). -/
def St.queue (s : St) (i : Nat) (op : Aio.Op) : Option St :=
  match Aio.step (s.qs i) op with
  | .ok q => some { s with qs := upd s.qs i q }
  | _ => none

/-- One byte from the buffer to the file or back, as the control block says (linuxaio_request.cpp:62-69). -/
def St.byte (s : St) (q : Req) (j : Nat) : St :=
  if q.write then
    let f := s.files q.disk
    let g : Files.File := { size := max f.size (q.off + j + 1)
                            byte := fun i => if i = q.off + j then (s.mem q.buf).getD j 0 else f.byte i }
    { s with files := upd s.files q.disk g }
  else { s with mem := upd s.mem q.buf ((s.mem q.buf).set j ((s.files q.disk).byte (q.off + j))) }

/-- What the kernel reports (linuxaio_queue.cpp:232-235, 283-286): the operations it does not report as failed or short are transferred. -/
def St.honest (s : St) (o : Aio.Kernel) : Bool :=
  o.evs.all (fun x => o.bad.contains x ||
    match s.reqs x with
    | some q => (List.range q.size).all (fun j => (s.moved x).contains j)
    | none => true)

/-- One step; `qid d` is the queue of disk `d` (linuxaio_file.cpp:30, 43). -/
def step (qid : Nat → Nat) (s : St) : Op → Option St
  | .mgr op =>
    let m := s.m.step op
    some { s with m := m, files := fun d => grown (bytesOf s.m d) (bytesOf m d) (s.files d) }
  | .fill buf data => some { s with mem := upd s.mem buf data }
  | .io r w b buf =>
    match b.storage with
    | .managed d => St.queue { s with reqs := upd s.reqs r (some ⟨d, w, b.off, b.size, buf⟩) } (qid d) (.add r)
    | _ => none
  | .cancel r ok =>
    match s.reqs r with
    | some q =>
      if r ∈ (s.qs (qid q.disk)).waiting then s.queue (qid q.disk) (.cancelW r) else s.queue (qid q.disk) (.cancelK r ok)
    | none => none
  | .kernel i r j =>
    match s.reqs r with
    | some q =>
      if r ∈ (s.qs i).infl ∧ j < q.size then some { s.byte q j with moved := upd s.moved r (j :: s.moved r) } else none
    | none => none
  | .run _ (.add _) | .run _ (.cancelW _) | .run _ (.cancelK _ _) => none
  | .run i (.post o) => if s.honest o then s.queue i (.post o) else none
  | .run i (.wait o) => if s.honest o then s.queue i (.wait o) else none
  | .run i op => s.queue i op

/-- Start (block_manager.cpp:33-84, linuxaio_queue.cpp:34-67): the files of the disks, with whatever they contained, get the configured
sizes; the queues are empty. -/
def init (m : Mgr.Manager) (files : Nat → Files.File) (mem : Nat → List UInt8) (maxE : Nat → Nat) : St :=
  let s : Mgr.MSys := ⟨m, [], 0, 0⟩
  { m := s, files := fun d => grown 0 (bytesOf s d) (files d), qs := fun i => Aio.init (maxE i), reqs := fun _ => none,
    mem := mem, moved := fun _ => [] }

end Foxxll.AioStore
