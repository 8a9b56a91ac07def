import Verif.Model.Store
/-
Block manager, queues and files, as `Model/Store.lean`, for the other kinds of files too: `syscall_file`, `mmap_file`, `memory_file` and
`fileperblock_file<syscall_file>` (`Model/Files.lean`), each disk with a kind of its own.  Here `delete_block` also tells the file that the region is not
used any more (`discard`, /repo/foxxll/mng/block_manager.hpp:265), with effects that depend on the kind.

Simplifications: those of `Model/Store.lean`; memory is granted (`realloc` and `malloc` in `memory_file` do not fail; see C34 for that); `discard` and the
transfer of a request are one step each (`memory_file` has a mutex for them, memory_file.cpp:29, 75; `fileperblock_file` has none).
-/
namespace Foxxll.DStore
open Foxxll

/-- The file of a disk (`create_file`, create_file.cpp:72-173): what it contains; with the page size of the system, or with mode and prefix of the names. -/
inductive Dev
  | sys (f : Files.File)
  | mmap (page : Nat) (f : Files.File)
  | mem (m : Files.Mem)
  | fpb (mode : Files.Mode) (pre : List Char) (fs : Files.FS)

/-- What the operating system does during a transfer (syscall_file.cpp:28-118, mmap_file.cpp:37-67, fileperblock_file.cpp:75-78). -/
structure Os where
  sys : Nat → Files.Sys
  mapFails : Bool := false
  unmapFails : Bool := false
  openFails : Bool := false
  truncFails : Bool := false

/-- Outcome of `serve` (serving_request.cpp:40-63); `dead`: undefined behaviour or a signal. -/
inductive Res
  | done (d : Dev) (buf : List UInt8)
  | throws (d : Dev) (buf : List UInt8)
  | dead

/-- `serve` of the kinds of files (syscall_file.cpp:28-118, mmap_file.cpp:26-69, memory_file.cpp:26-41, fileperblock_file.cpp:70-79). -/
def Dev.serve (d : Dev) (os : Os) (write : Bool) (buf : List UInt8) (off bytes : Nat) : Res :=
  match d with
  | .sys f =>
    match (if write then Files.serveWrite os.sys f buf off bytes else Files.serveRead os.sys f buf off bytes) with
    | .done f b => .done (.sys f) b
    | .throws f b => .throws (.sys f) b
    | .fuel => .dead
  | .mmap page f =>
    match Files.serveMmap page os.mapFails os.unmapFails write f buf off bytes with
    | .done f b => .done (.mmap page f) b
    | .throws f b => .throws (.mmap page f) b
    | .sigbus => .dead
  | .mem m =>
    if write then
      match m.write off (buf.take bytes) with
      | .ok m => .done (.mem m) buf
      | .ub => .dead
    else
      match m.read off bytes with
      | .ok l => .done (.mem m) (Files.store buf 0 l)
      | .ub => .dead
  | .fpb mode pre fs =>
    let o := Files.fpbServe mode ⟨os.openFails, os.truncFails, os.sys⟩ pre fs write buf off bytes
    if o.threw then .throws (.fpb mode pre o.fs) o.buf else .done (.fpb mode pre o.fs) o.buf

/-- `set_size` (ufs_file_base.cpp:231-281, memory_file.cpp:64-71, fileperblock_file.hpp:60, where only a number is stored); `junk` is the content of memory that
`realloc` provides. -/
def Dev.setSize (d : Dev) (n : Nat) (junk : Nat → UInt8) : Dev :=
  match d with
  | .sys f => .sys (Files.truncate f n)
  | .mmap page f => .mmap page (Files.truncate f n)
  | .mem m => .mem (m.setSize n (some junk))
  | .fpb mode pre fs => .fpb mode pre fs

/-- `discard` (file.hpp:159-163: nothing; memory_file.cpp:73-93; fileperblock_file.cpp:105-119); `junk` is the content of memory from `malloc`; `none`: undefined
behaviour. -/
def Dev.discard (d : Dev) (off bytes : Nat) (junk : Nat → UInt8) (rmFails : Bool) : Option Dev :=
  match d with
  | .sys f => some (.sys f)
  | .mmap page f => some (.mmap page f)
  | .mem m =>
    match m.discard off bytes (some junk) with
    | .ok m => some (.mem m)
    | .ub => none
  | .fpb mode pre fs => some (.fpb mode pre (Files.fpbDiscard pre fs rmFails off))

/-- As `Store.St`; `dead`: something undefined has happened (memory_file.cpp:34, 39, 80-87, mmap_file.cpp:58-62). -/
structure St where
  m : Mgr.MSys
  files : Nat → Dev
  qs : Nat → Queue.St
  reqs : Nat → Option Store.Req
  mem : Nat → List UInt8
  failed : List Nat
  dead : Bool

/-- `grow_file` (disk_block_allocator.hpp:147-155). -/
def grown (old new : Nat) (junk : Nat → UInt8) (d : Dev) : Dev := if old < new then d.setSize new junk else d

/-- Calls of the client (block_manager.hpp:164-268, bid.hpp, request_with_state.cpp:46-67) and steps of the workers. -/
inductive Op
  /-- `new_blocks` or `delete_block` -/
  | mgr (op : Mgr.MOp) (junk : Nat → UInt8) (rmFails : Bool)
  /-- the client fills a buffer -/
  | fill (buf : Nat) (data : List UInt8)
  /-- `bid.write(buffer, size)` or `bid.read(buffer, size)`: request `r` -/
  | io (r : Nat) (write : Bool) (b : Mgr.Bid) (buf : Nat)
  /-- `request::cancel` -/
  | cancel (r : Nat)
  /-- a step of the threads on queue `i`; `os` answers the calls of the operating system -/
  | run (i : Nat) (op : Queue.Op) (os : Os)

/-- `serving_request::serve` (serving_request.cpp:40-63). -/
def St.serve (s : St) (r : Nat) (os : Os) : St :=
  match s.reqs r with
  | none => s
  | some q =>
    match (s.files q.disk).serve os q.write (s.mem q.buf) q.off q.size with
    | .done f b => { s with files := Store.upd s.files q.disk f, mem := Store.upd s.mem q.buf b }
    | .throws f b => { s with files := Store.upd s.files q.disk f, mem := Store.upd s.mem q.buf b, failed := r :: s.failed }
    | .dead => { s with dead := true }

/-- The part of a worker's step outside of the queue (request_queue_impl_1q.cpp:140, request_queue_impl_qwqr.cpp:175, 204). -/
def St.transfer (s : St) (i : Nat) (os : Os) : St :=
  match (s.qs i).wpc with
  | .serving r => s.serve r os
  | _ => s

/-- A step on queue `i` (request_queue_impl_1q.cpp:62-168, request_queue_impl_qwqr.cpp:61-240). -/
def St.queue (k : Queue.Kind) (s : St) (i : Nat) (op : Queue.Op) : Option St :=
  match Queue.step k (s.qs i) op with
  | .ok q => some { s with qs := Store.upd s.qs i q }
  | _ => none

/-- `new_blocks` and `delete_block` (block_manager.hpp:164-268): after the allocator has taken the block back, its region is discarded. -/
def St.manage (s : St) (op : Mgr.MOp) (junk : Nat → UInt8) (rmFails : Bool) : St :=
  let m := s.m.step op
  let g : Nat → Dev := fun d => grown (Store.bytesOf s.m d) (Store.bytesOf m d) junk (s.files d)
  match op with
  | .new _ _ _ => { s with m := m, files := g }
  | .delete b =>
    match b.storage, s.m.mgr.deleteBlock b with
    | .managed d, .ok _ =>
      match (g d).discard b.off b.size junk rmFails with
      | some f => { s with m := m, files := Store.upd g d f }
      | none => { s with m := m, files := g, dead := true }
    | _, _ => { s with m := m, files := g }

/-- One step; `qid d` is the queue of disk `d` (`get_queue_id`, disk_queued_file.cpp:31, 44; by default `d`,
block_manager.cpp:51-53). -/
def step (k : Queue.Kind) (qid : Nat → Nat) (s : St) : Op → Option St
  | .mgr op junk rmFails => some (s.manage op junk rmFails)
  | .fill buf data => some { s with mem := Store.upd s.mem buf data }
  | .io r w b buf =>
    match b.storage with
    | .managed d => { s with reqs := Store.upd s.reqs r (some ⟨d, w, b.off, b.size, buf⟩) }.queue k (qid d) (.push r w)
    | _ => none
  | .cancel r =>
    match s.reqs r with
    | some q => s.queue k (qid q.disk) (.cancel r q.write)
    | none => none
  | .run i .signal _ => s.queue k i .signal
  | .run i .cancelTake _ => s.queue k i .cancelTake
  | .run i .work os => (s.transfer i os).queue k i .work
  | .run _ _ _ => none

/-- Start (block_manager.cpp:33-84): the files of the disks, with whatever they contained, get the configured sizes; the queues are empty. -/
def init (m : Mgr.Manager) (files : Nat → Dev) (junk : Nat → UInt8) (mem : Nat → List UInt8) : St :=
  let s : Mgr.MSys := ⟨m, [], 0, 0⟩
  { m := s, files := fun d => grown 0 (Store.bytesOf s d) junk (files d), qs := fun _ => Queue.init, reqs := fun _ => none,
    mem := mem, failed := [], dead := false }

end Foxxll.DStore
