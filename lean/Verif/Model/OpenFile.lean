import Verif.Model.Config
/-
Model of opening files: the constructor of `ufs_file_base`, its `_after_open`, `close`, `lock`,
`set_size`, `unlink`, `close_remove` (/repo/foxxll/io/ufs_file_base.cpp), `create_file`
(/repo/foxxll/io/create_file.cpp), the opening of all disks in the constructor of `block_manager`
(/repo/foxxll/mng/block_manager.cpp:33-83) and the destructor of `config`
(/repo/foxxll/mng/config.cpp:53-64).

System calls are answered by an oracle that knows all calls made before; every call is recorded.
Linux only (the branches for Windows and Mac OS X are left out).  The mutex of the descriptor is
left out: no other thread knows the file yet.
-/
namespace Foxxll.Open
open Foxxll.Config (Str Disk Direct Cfg)

/-- `open_mode` (file.hpp:64-87), one flag per bit. -/
structure Mode where
  rdonly : Bool := false
  wronly : Bool := false
  rdwr : Bool := false
  creat : Bool := false
  direct : Bool := false
  trunc : Bool := false
  sync : Bool := false
  noLock : Bool := false
  requireDirect : Bool := false
  deriving DecidableEq

/-- Flags of `::open`; `O_RDONLY` is 0, `sync` stands for `O_RSYNC | O_DSYNC | O_SYNC` (ufs_file_base.cpp:36-92). -/
structure Flags where
  wronly : Bool := false
  rdwr : Bool := false
  creat : Bool := false
  trunc : Bool := false
  direct : Bool := false
  sync : Bool := false
  deriving DecidableEq

/-- A system call and whether it succeeded (ufs_file_base.cpp:100-317, fileperblock_file.cpp:54-102). -/
inductive Ev
  | open (path : Str) (f : Flags) (ok : Bool)
  | fstat (ok : Bool)
  /-- `fcntl(F_SETLK)` with `F_WRLCK` (`excl`) or `F_RDLCK` -/
  | setlk (excl ok : Bool)
  | lseek (ok : Bool)
  | ftruncate (ok : Bool)
  /-- the write request for the lock file -/
  | write (ok : Bool)
  | unlink (path : Str) (ok : Bool)
  | remove (path : Str) (ok : Bool)
  | close (ok : Bool)
  /-- a call with descriptor -1, which fails with `EBADF` -/
  | badFd
  deriving DecidableEq

/-- Answer of `::open`; `EINVAL` is told apart (ufs_file_base.cpp:108). -/
inductive OpenAns
  | ok
  | einval
  | other
  deriving DecidableEq

/-- The operating system: an answer to every call after every history (no code of its own; calls in ufs_file_base.cpp:100-317). -/
structure Os where
  opened : List Ev → Str → Flags → OpenAns
  /-- `none`: fails; otherwise whether it is a block device -/
  fstat : List Ev → Option Bool
  setlk : List Ev → Bool → Bool
  /-- `lseek(fd, 0, SEEK_END)`: the size -/
  lseekEnd : List Ev → Option Nat
  lseekSet : List Ev → Bool
  ftruncate : List Ev → Bool
  write : List Ev → Bool
  unlink : List Ev → Str → Bool
  remove : List Ev → Str → Bool
  close : List Ev → Bool
  /-- value of `is_device_` before it is set -/
  junk : Bool := false

/-- Configuration of the build (config.hpp.in:31-41). -/
structure Build where
  directOff : Bool := false
  haveAio : Bool := true
  haveMmap : Bool := true

/-- Exceptions (exceptions.hpp, create_file.cpp:205-208). -/
inductive Exc
  | ioError
  | runtimeError
  | outOfRange
  deriving DecidableEq

/-- How a call ends (error_handling.hpp:38-64 for exceptions, ufs_file_base.cpp:130-133 for a destructor that throws). -/
inductive Out (α : Type)
  | ok (a : α)
  | throws (e : Exc)
  /-- an exception leaves a destructor -/
  | terminate
  | ub

/-- The calls made so far, the `disk_config` passed by reference, the configuration object (create_file.cpp:44, config.hpp:114). -/
structure St where
  ev : List Ev
  disk : Disk
  cfg : Cfg

/-- Functions with these outcomes (notation; no code of its own). -/
abbrev M (α : Type) := St → Out α × St

/-- A function that returns (notation; no code of its own). -/
def M.pure {α : Type} (a : α) : M α := fun s => (.ok a, s)

/-- `FOXXLL_THROW_ERRNO(io_error, ...)` (error_handling.hpp:63-64). -/
def M.throw {α : Type} : M α := fun s => (.throws .ioError, s)

/-- Sequence; an exception ends it (notation; no code of its own). -/
def M.bind {α β : Type} (x : M α) (f : α → M β) : M β := fun s =>
  match x s with
  | (.ok a, s') => f a s'
  | (.throws e, s') => (.throws e, s')
  | (.terminate, s') => (.terminate, s')
  | (.ub, s') => (.ub, s')

/-- An exception of `x` runs the destructor `d` of a local object; if the destructor fails the
program is terminated (as for `result` in create_file.cpp:76-102). -/
def M.guard {α : Type} (d : M Unit) (x : M α) : M α := fun s =>
  match x s with
  | (.throws e, s') =>
    match d s' with
    | (.ok _, s'') => (.throws e, s'')
    | (_, s'') => (.terminate, s'')
  | r => r

/-- Record a call; throw `io_error` if it failed (as in ufs_file_base.cpp:206-207). -/
def call (e : Ev) (ok : Bool) : M Unit := fun s =>
  (if ok then .ok () else .throws .ioError, { s with ev := s.ev ++ [e] })

/-- Record a call whose failure is ignored (as in fileperblock_file.cpp:113-115). -/
def note (e : Ev) : M Unit := fun s => (.ok (), { s with ev := s.ev ++ [e] })

/-- Members of `ufs_file_base` and `file` (ufs_file_base.hpp:32-36, file.hpp:192); `fd` is `none`
for -1, otherwise the flags the descriptor was opened with. -/
structure Ufs where
  path : Str
  mode : Mode
  fd : Option Flags
  isDevice : Bool
  needAlign : Bool
  deriving DecidableEq

/-- Translation of the mode (ufs_file_base.cpp:36-88). -/
def flagsOf (b : Build) (m : Mode) : Flags :=
  { wronly := m.wronly, rdwr := m.rdwr, creat := m.creat, trunc := m.trunc,
    direct := (m.direct || m.requireDirect) && !b.directOff, sync := m.sync }

/-- `lock` (ufs_file_base.cpp:195-209): `F_RDLCK | F_WRLCK` is `F_WRLCK` on Linux. -/
def lock (os : Os) (f : Ufs) : M Unit := fun s =>
  match f.fd with
  | none => call .badFd false s
  | some _ =>
    let ok := os.setlk s.ev (!f.mode.rdonly)
    call (.setlk (!f.mode.rdonly) ok) ok s

/-- `_after_open` (ufs_file_base.cpp:135-180): the object with `is_device_` set. -/
def afterOpen (os : Os) (f : Ufs) : M Ufs := fun s =>
  match os.fstat s.ev with
  | none => M.bind (call (.fstat false) false) (fun _ => M.pure f) s
  | some dev =>
    let f' := { f with isDevice := dev }
    M.bind (note (.fstat true)) (fun _ =>
      if f.mode.noLock then M.pure f' else M.bind (lock os f') (fun _ => M.pure f')) s

/-- Constructor of `ufs_file_base` (ufs_file_base.cpp:33-128).  An exception inside the constructor
does not run the destructor.  `need_alignment_` is set only if the first `open` succeeds, to the
bit DIRECT; `mode_` keeps that bit after the second `open`. -/
def construct (os : Os) (b : Build) (path : Str) (m : Mode) : M Ufs := fun s =>
  let f0 : Ufs := { path := path, mode := m, fd := none, isDevice := os.junk, needAlign := false }
  if b.directOff && m.requireDirect then (.ok f0, s)
  else
    let fl := flagsOf b m
    match os.opened s.ev path fl with
    | .ok =>
      M.bind (note (.open path fl true)) (fun _ => afterOpen os { f0 with fd := some fl, needAlign := m.direct }) s
    | ans =>
      if !b.directOff && m.direct && !m.requireDirect && ans = .einval then
        let fl' := { fl with direct := false }
        M.bind (note (.open path fl false)) (fun _ s =>
          match os.opened s.ev path fl' with
          | .ok => M.bind (note (.open path fl' true)) (fun _ => afterOpen os { f0 with fd := some fl' }) s
          | _ => M.bind (note (.open path fl' false)) (fun _ => M.throw) s) s
      else M.bind (note (.open path fl false)) (fun _ => M.throw) s

/-- `close` (ufs_file_base.cpp:182-193): the descriptor remains in the object if `::close` fails. -/
def close (os : Os) (f : Ufs) : M Ufs := fun s =>
  match f.fd with
  | none => (.ok f, s)
  | some _ =>
    let ok := os.close s.ev
    M.bind (call (.close ok) ok) (fun _ => M.pure { f with fd := none }) s

/-- Destructor of `ufs_file_base` (ufs_file_base.cpp:130-133). -/
def destroy (os : Os) (f : Ufs) : M Unit := M.bind (close os f) (fun _ => M.pure ())

/-- `size` (ufs_file_base.cpp:211-229). -/
def size (os : Os) (f : Ufs) : M Nat := fun s =>
  match f.fd with
  | none => M.bind (call .badFd false) (fun _ => M.pure 0) s
  | some _ =>
    match os.lseekEnd s.ev with
    | none => M.bind (call (.lseek false) false) (fun _ => M.pure 0) s
    | some n => M.bind (note (.lseek true)) (fun _ => M.pure n) s

/-- `set_size` (ufs_file_base.cpp:231-281). -/
def setSize (os : Os) (f : Ufs) (n : Nat) : M Unit :=
  M.bind (size os f) fun cur =>
    M.bind (fun s => if !f.mode.rdonly && !f.isDevice then call (.ftruncate (os.ftruncate s.ev)) (os.ftruncate s.ev) s else (.ok (), s)) fun _ s =>
      if cur < n then call (.lseek (os.lseekSet s.ev)) (os.lseekSet s.ev) s else (.ok (), s)

/-- `unlink` (ufs_file_base.cpp:298-308). -/
def unlink (os : Os) (f : Ufs) : M Unit := fun s =>
  if f.isDevice then (.ok (), s)
  else call (.unlink f.path (os.unlink s.ev f.path)) (os.unlink s.ev f.path) s

/-- `close_remove` (ufs_file_base.cpp:283-296). -/
def closeRemove (os : Os) (f : Ufs) : M Ufs :=
  M.bind (close os f) fun f' s =>
    if f'.isDevice then (.ok f', s)
    else M.bind (note (.remove f'.path (os.remove s.ev f'.path))) (fun _ => M.pure f') s

/-- I/O implementations of `create_file` (create_file.cpp:74-182) without those for Windows. -/
inductive Kind
  | syscall
  | fpbSyscall
  | memory
  | linuxaio
  | mmap
  | fpbMmap
  deriving DecidableEq

/-- Chain of comparisons with `cfg.io_impl` (create_file.cpp:74, 104, 113, 124, 161, 174). -/
def kindOf (b : Build) (s : Str) : Option Kind :=
  if s = "syscall".toList then some .syscall
  else if s = "fileperblock_syscall".toList then some .fpbSyscall
  else if s = "memory".toList then some .memory
  else if b.haveAio ∧ s = "linuxaio".toList then some .linuxaio
  else if b.haveMmap ∧ s = "mmap".toList then some .mmap
  else if b.haveMmap ∧ s = "fileperblock_mmap".toList then some .fpbMmap
  else none

/-- A file object: the file itself, or the lock file of a file per block, or no file in memory (file.hpp:54-100, create_file.cpp:74-182). -/
structure FileObj where
  kind : Kind
  ufs : Option Ufs
  queue : Int
  alloc : Int
  device : Nat
  queueLength : Int

/-- Settings of the `disk_config` applied to the mode (create_file.cpp:48-59). -/
def applyDirect (d : Direct) (m : Mode) : Mode :=
  match d with
  | .off => { m with direct := false, requireDirect := false }
  | .try_ => { m with direct := true, requireDirect := false }
  | .on => { m with direct := true, requireDirect := true }

/-- Options kept for a device node (create_file.cpp:91-97, 146-152). -/
def asDevice (d : Disk) (n : Nat) : Disk :=
  { d with rawDevice := true, size := n, autogrow := false, deleteOnExit := false, unlinkOnOpen := false }

/-- Check for raw devices (create_file.cpp:82-97 and 137-152). -/
def checkDevice (os : Os) (f : Ufs) : M Unit := fun s =>
  if s.disk.rawDevice && !f.isDevice then (.throws .ioError, s)
  else if f.isDevice then M.bind (size os f) (fun n s => (.ok (), { s with disk := asDevice s.disk n })) s
  else (.ok (), s)

/-- create_file.cpp:99-100, 154-155, 169-170. -/
def unlinkIf (os : Os) (f : Ufs) : M Unit := fun s => if s.disk.unlinkOnOpen then unlink os f s else (.ok (), s)

/-- Files with one descriptor: construct, lock, check, unlink (create_file.cpp:74-103, 124-158,
161-173).  An exception after the construction destroys the file. -/
def openUfs (os : Os) (b : Build) (m : Mode) (check : Bool) : M Ufs := fun s =>
  M.bind (construct os b s.disk.path m) (fun f =>
    M.guard (destroy os f)
      (M.bind (lock os f) fun _ => M.bind (if check then checkDevice os f else M.pure ()) fun _ =>
        M.bind (unlinkIf os f) fun _ => M.pure f)) s

/-- `fileperblock_file::lock` (fileperblock_file.cpp:81-102) of a new object: an exception after the
construction of the lock file runs the destructor of `fileperblock_file` (54-59). -/
def openFpb (os : Os) (b : Build) (m : Mode) : M Ufs := fun s =>
  M.bind (construct os b (Files.lockName s.disk.path) m) (fun f =>
    M.guard (M.bind (closeRemove os f) fun f' => destroy os f')
      (M.bind (setSize os f 4096) fun _ =>
        M.bind (fun s => call (.write (os.write s.ev)) (os.write s.ev) s) fun _ =>
          M.bind (lock os f) fun _ => M.pure f)) s

/-- The selected implementation (create_file.cpp:74-182). -/
def openKind (os : Os) (b : Build) (m : Mode) : Kind → M (Option Ufs)
  | .syscall => M.bind (openUfs os b m true) fun f => M.pure (some f)
  | .linuxaio => M.bind (openUfs os b m true) fun f => M.pure (some f)
  | .mmap => M.bind (openUfs os b m false) fun f => M.pure (some f)
  | .fpbSyscall => M.bind (openFpb os b m) fun f => M.pure (some f)
  | .fpbMmap => M.bind (openFpb os b m) fun f => M.pure (some f)
  | .memory => M.pure none

/-- Assignment of the device id (create_file.cpp:63-70). -/
def setId (s : St) : St :=
  let r := Config.assignId s.cfg s.disk.deviceId
  { s with disk := { s.disk with deviceId := r.1 }, cfg := r.2 }

/-- linuxaio files have one queue (create_file.cpp:126-127). -/
def setQueue (k : Kind) (s : St) : St :=
  if k = .linuxaio then { s with disk := { s.disk with queue := -2 } } else s

/-- `create_file(cfg, mode, allocator)` (create_file.cpp:44-209). -/
def createFile (os : Os) (b : Build) (m : Mode) (alloc : Int) : M FileObj := fun s =>
  let s1 := setId s
  match kindOf b s1.disk.ioImpl with
  | none => (.throws .runtimeError, s1)
  | some k =>
    let s2 := setQueue k s1
    M.bind (openKind os b (applyDirect s2.disk.direct m) k) (fun u s3 =>
      (.ok { kind := k, ufs := u, queue := s3.disk.queue, alloc := alloc, device := s3.disk.deviceId,
             queueLength := if k = .linuxaio then s3.disk.queueLength else 0 }, s3)) s2

/-- Flags of `create_file` with a mode instead of a `disk_config` (create_file.cpp:36-39). -/
def directOf (m : Mode) : Direct := if m.requireDirect then .on else if m.direct then .try_ else .off

/-- `create_file(io_impl, filename, options, queue, allocator)` (create_file.cpp:29-42); the local
`disk_config` is lost. -/
def createNamed (os : Os) (b : Build) (io path : Str) (m : Mode) (queue alloc : Int) : M FileObj := fun s =>
  match Config.mkDisk path 0 io with
  | .ok d => createFile os b m alloc { s with disk := { d with queue := queue, direct := directOf m } }
  | .runtimeError => (.throws .runtimeError, s)
  | .outOfRange => (.throws .outOfRange, s)
  | .ub => (.ub, s)

/-- Destruction of a file object (ufs_file_base.cpp:130-133; fileperblock_file.cpp:54-59;
memory_file.cpp:48-52). -/
def destroyObj (os : Os) (o : FileObj) : M Unit :=
  match o.ufs with
  | none => M.pure ()
  | some f =>
    match o.kind with
    | .fpbSyscall => M.bind (closeRemove os f) fun f' => destroy os f'
    | .fpbMmap => M.bind (closeRemove os f) fun f' => destroy os f'
    | _ => destroy os f

/-- Destruction of a vector of files (`disk_files_`, block_manager.hpp:140). -/
def destroyAll (os : Os) : List FileObj → M Unit
  | [] => M.pure ()
  | o :: os' => M.bind (destroyObj os o) fun _ => destroyAll os os'

/-- `cfg.queue` of disk `i` (block_manager.cpp:52-53). -/
def queueOf (i : Nat) (d : Disk) : Disk := if d.queue = -1 then { d with queue := i } else d

/-- Write the `disk_config` passed by reference back to the configuration (block_manager.cpp:49). -/
def putBack (i : Nat) (s : St) : St := { s with cfg := { s.cfg with disks := s.cfg.disks.set i s.disk } }

/-- Disk `i` (block_manager.cpp:49-69). -/
def openDisk (os : Os) (b : Build) (i : Nat) (d : Disk) : M FileObj := fun s =>
  let r := createFile os b { creat := true, rdwr := true } i { s with disk := queueOf i d }
  (r.1, putBack i r.2)

/-- Loop over the disks (block_manager.cpp:47-77) for the disks from `i` on; the files opened so far
are destroyed by an exception (the order is not specified, here the last one first).  `make_queue` is in `Verif.Model.DiskQueues`; growing the file in the
constructor of `disk_block_allocator` is left out (modelled in `Verif.Model.Allocator`). -/
def openDisks (os : Os) (b : Build) : Nat → List Disk → M (List FileObj)
  | _, [] => M.pure []
  | i, d :: ds =>
    M.bind (openDisk os b i d) fun o =>
      M.guard (destroyObj os o) (M.bind (openDisks os b (i + 1) ds) fun l => M.pure (o :: l))

/-- Destructor of `config` (config.cpp:53-64); failures are ignored. -/
def removeDisks (os : Os) : List Disk → M Unit
  | [] => M.pure ()
  | d :: ds =>
    M.bind (fun s => if d.deleteOnExit then note (.unlink d.path (os.unlink s.ev d.path)) s else (.ok (), s)) fun _ =>
      removeDisks os ds

end Foxxll.Open
