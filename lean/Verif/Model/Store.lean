import Verif.Spec.Manager
import Verif.Model.Queues
import Verif.Model.Files
/-
The way of a block's data through the library: blocks are allocated by the block manager
(`Model/Manager.lean`), `BID::read`/`write` make a request for the file of the block's disk
(/repo/foxxll/mng/bid.hpp:80-92, 140-152, /repo/foxxll/io/disk_queued_file.cpp:23-47), the request is put
into the queue of that disk (`Model/Queues.lean`), and the worker of the queue transfers the data
between the buffer and the file (`Model/Files.lean`; `serving_request::serve`,
/repo/foxxll/io/serving_request.cpp:40-63).

Simplifications: the disks are files of type `syscall_file`; the transfer of one request is one step (the
worker is the only thread that transfers data of the files of its queue; `set_size` by an
allocating thread is excluded by `fd_mutex_`); `set_size` does not fail; all growths of a disk by one call
of `new_blocks` are one `set_size`; the queues are not shut down; completion (handlers, waking of
the waiting threads, `Model/Request.lean`) is left out: a request is finished when it has been served
or canceled.
-/
namespace Foxxll.Store
open Foxxll

/-- What a request carries (`request`'s members, request.hpp:62-71): the file (here its disk), the
operation, position and buffer. -/
structure Req where
  disk : Nat
  write : Bool
  off : Nat
  size : Nat
  buf : Nat
deriving DecidableEq, Repr

/-- The block manager with the client's blocks, the files of the disks, the queues, the requests made so far, the
client's buffers, and the requests whose transfer failed (`request::error_`, request.hpp:56). -/
structure St where
  m : Mgr.MSys
  files : Nat → Files.File
  qs : Nat → Queue.St
  reqs : Nat → Option Req
  mem : Nat → List UInt8
  failed : List Nat

/-- Replace one entry (as `disk_files_[i]`, block_manager.hpp:140). -/
def upd {α : Type} (f : Nat → α) (i : Nat) (a : α) : Nat → α := fun j => if j = i then a else f j

/-- `disk_bytes_` of disk `d` (disk_block_allocator.hpp:131). -/
def bytesOf (m : Mgr.MSys) (d : Nat) : Nat :=
  match m.mgr.disks[d]? with
  | some dk => dk.diskBytes
  | none => 0

/-- `grow_file` (disk_block_allocator.hpp:147-155): the file gets the new size of the disk; nothing happens
if the disk does not grow. -/
def grown (old new : Nat) (f : Files.File) : Files.File := if old < new then Files.truncate f new else f

/-- Calls of the client (block_manager.hpp:164-268, bid.hpp, request_with_state.cpp:46-67) and steps of the workers. -/
inductive Op
  /-- `new_blocks` or `delete_block` -/
  | mgr (op : Mgr.MOp)
  /-- the client fills a buffer -/
  | fill (buf : Nat) (data : List UInt8)
  /-- `bid.write(buffer, size)` or `bid.read(buffer, size)`: request `r` -/
  | io (r : Nat) (write : Bool) (b : Mgr.Bid) (buf : Nat)
  /-- `request::cancel` -/
  | cancel (r : Nat)
  /-- a step of the threads on queue `i`; `os` answers the calls of the operating system -/
  | run (i : Nat) (op : Queue.Op) (os : Nat → Files.Sys)

/-- `serving_request::serve` (serving_request.cpp:40-63): transfer, an `io_error` is stored in the
request. -/
def St.serve (s : St) (r : Nat) (os : Nat → Files.Sys) : St :=
  match s.reqs r with
  | none => s
  | some q =>
    if q.write then
      match Files.serveWrite os (s.files q.disk) (s.mem q.buf) q.off q.size with
      | .done f _ => { s with files := upd s.files q.disk f }
      | .throws f _ => { s with files := upd s.files q.disk f, failed := r :: s.failed }
      | .fuel => s
    else
      match Files.serveRead os (s.files q.disk) (s.mem q.buf) q.off q.size with
      | .done _ b => { s with mem := upd s.mem q.buf b }
      | .throws _ b => { s with mem := upd s.mem q.buf b, failed := r :: s.failed }
      | .fuel => s

/-- The part of a worker's step outside of the queue: in `serve` data are transferred
(request_queue_impl_1q.cpp:140, request_queue_impl_qwqr.cpp:175, 204). -/
def St.transfer (s : St) (i : Nat) (os : Nat → Files.Sys) : St :=
  match (s.qs i).wpc with
  | .serving r => s.serve r os
  | _ => s

/-- A step on queue `i` (request_queue_impl_1q.cpp:62-168, request_queue_impl_qwqr.cpp:61-240). -/
def St.queue (k : Queue.Kind) (s : St) (i : Nat) (op : Queue.Op) : Option St :=
  match Queue.step k (s.qs i) op with
  | .ok q => some { s with qs := upd s.qs i q }
  | _ => none

/-- One step; `qid d` is the queue of disk `d` (`get_queue_id`, disk_queued_file.cpp:31, 44; by default `d`,
block_manager.cpp:51-53). -/
def step (k : Queue.Kind) (qid : Nat → Nat) (s : St) : Op → Option St
  | .mgr op =>
    let m := s.m.step op
    some { s with m := m, files := fun d => grown (bytesOf s.m d) (bytesOf m d) (s.files d) }
  | .fill buf data => some { s with mem := upd s.mem buf data }
  | .io r w b buf =>
    match b.storage with
    | .managed d => { s with reqs := upd s.reqs r (some ⟨d, w, b.off, b.size, buf⟩) }.queue k (qid d) (.push r w)
    | _ => none
  | .cancel r =>
    match s.reqs r with
    | some q => s.queue k (qid q.disk) (.cancel r q.write)
    | none => none
  | .run i .signal _ => s.queue k i .signal
  | .run i .cancelTake _ => s.queue k i .cancelTake
  | .run i .work os => (s.transfer i os).queue k i .work
  | .run _ _ _ => none

/-- Start (block_manager.cpp:33-84): the files of the disks, with whatever they contained, get the configured
sizes; the queues are empty. -/
def init (m : Mgr.Manager) (files : Nat → Files.File) (mem : Nat → List UInt8) : St :=
  let s : Mgr.MSys := ⟨m, [], 0, 0⟩
  { m := s, files := fun d => grown 0 (bytesOf s d) (files d), qs := fun _ => Queue.init, reqs := fun _ => none,
    mem := mem, failed := [] }

end Foxxll.Store
