import Verif.Model.OpenFile
import Verif.Model.Files
/-
Model of the file implementation for Windows: `wfs_file_base` (/repo/foxxll/io/wfs_file_base.cpp)
and `wincall_file` (/repo/foxxll/io/wincall_file.cpp).

One file object and the file of its name.  Calls of the Win32 API have the effects documented by
Microsoft on success; whether they fail for other reasons than those modelled is answered by an
oracle, which is asked with the number of the call.  Other processes can be seen only by such
failures.  `fd_mutex_` serialises the functions, so each of them is one atomic step; statistics and
logging are left out.
-/
namespace Foxxll.Win
open Foxxll.Open (Mode)
open Foxxll.Files (File emptyFile pread store)

/-- Configuration of the build: FOXXLL_DIRECT_IO_OFF, NDEBUG (wfs_file_base.cpp:73, 100; wincall_file.cpp:65, 86). -/
structure Build where
  directOff : Bool := false
  ndebug : Bool := true

/-- An open file as the operating system sees it: GENERIC_READ, GENERIC_WRITE,
FILE_FLAG_NO_BUFFERING, and whether the range is locked by `LockFile` (wfs_file_base.cpp:41-74, 178). -/
structure Handle where
  read : Bool
  write : Bool
  unbuf : Bool
  locked : Bool := false
  deriving DecidableEq

/-- The operating system.  `fails n`: call number `n` fails for reasons not modelled (calls in wfs_file_base.cpp:92-246, wincall_file.cpp:32-105). -/
structure Os where
  fails : Nat → Bool := fun _ => false
  /-- the file system accepts FILE_FLAG_NO_BUFFERING -/
  direct : Nat → Bool := fun _ => true
  /-- size of a sector, as returned by `GetDiskFreeSpaceA` -/
  sector : Nat := 512
  /-- bytes of a file between the old and a new end (not defined by the API) -/
  junk : Nat → UInt8 := fun _ => 0
  /-- `ReadFile`, `WriteFile`: at most this many bytes are transferred -/
  most : Nat → Nat := fun _ => 2 ^ 32

/-- Members of `wfs_file_base` (wfs_file_base.hpp:39-44) and `file::need_alignment_`; `bps` is
`none` while `bytes_per_sector_` is not initialised, `fd` is `none` for INVALID_HANDLE_VALUE.  `file`
is the file of the name, `readonly` its attribute, `calls` the number of calls so far. -/
structure St where
  file : Option File
  readonly : Bool := false
  calls : Nat := 0
  mode : Mode
  fd : Option Handle := none
  bps : Option Nat := none
  locked : Bool := false
  needAlign : Bool := false

/-- How a function ends (error_handling.hpp:107-124). -/
inductive Out (α : Type)
  | ok (a : α)
  /-- `io_error` -/
  | throws
  /-- a failed assertion -/
  | abort
  /-- undefined behaviour -/
  | ub
  deriving DecidableEq

/-- Functions with these outcomes (notation; no code of its own). -/
abbrev M (α : Type) := St → Out α × St

/-- Sequence; anything but a normal return ends it (notation; no code of its own). -/
def M.bind {α β : Type} (x : M α) (f : α → M β) : M β := fun s =>
  match x s with
  | (.ok a, s') => f a s'
  | (.throws, s') => (.throws, s')
  | (.abort, s') => (.abort, s')
  | (.ub, s') => (.ub, s')

/-- Number of the next call (no code of its own). -/
def St.tick (s : St) : St := { s with calls := s.calls + 1 }

/-- `CreateFileA` with share mode 0.  `trunc`: TRUNCATE_EXISTING, which needs write access and an
existing file, otherwise OPEN_ALWAYS.  The attribute `ro` (FILE_ATTRIBUTE_READONLY) is given to new
files only; files with the attribute are not opened for writing (wfs_file_base.cpp:92-95, 107-110). -/
def createFile (os : Os) (read write trunc unbuf ro : Bool) (s : St) : Option Handle × St :=
  if os.fails s.calls || (unbuf && !os.direct s.calls) then (none, s.tick)
  else match s.file with
    | none =>
      if trunc then (none, s.tick)
      else (some { read := read, write := write, unbuf := unbuf }, { s.tick with file := some emptyFile, readonly := ro })
    | some f =>
      if (write && s.readonly) || (trunc && !write) then (none, s.tick)
      else (some { read := read, write := write, unbuf := unbuf }, { s.tick with file := some (if trunc then emptyFile else f) })

/-- `open_file_impl` (wfs_file_base.cpp:34-118).  CREAT and SYNC are ignored (57-60, 87-90); the
retry without FILE_FLAG_NO_BUFFERING (100-115).  Returns `none` for INVALID_HANDLE_VALUE (79). -/
def openImpl (os : Os) (b : Build) (m : Mode) : M (Option Handle) := fun s =>
  if m.direct && b.directOff && m.requireDirect then (.ok none, s)
  else
    let rd := m.rdonly || m.rdwr
    let wr := m.wronly || m.rdwr
    match createFile os rd wr m.trunc (m.direct && !b.directOff) m.rdonly s with
    | (some h, s1) => (.ok (some h), s1)
    | (none, s1) =>
      if !b.directOff && m.direct && !m.requireDirect then
        match createFile os rd wr m.trunc false m.rdonly s1 with
        | (some h, s2) => (.ok (some h), s2)
        | (none, s2) => (.throws, s2)
      else (.throws, s1)

/-- `lock` (wfs_file_base.cpp:173-181): `LockFile` fails for an invalid handle. -/
def lock (os : Os) : M Unit := fun s =>
  if s.locked then (.ok (), s)
  else match s.fd with
    | none => (.throws, s.tick)
    | some h =>
      if os.fails s.calls then (.throws, s.tick)
      else (.ok (), { s.tick with fd := some { h with locked := true }, locked := true })

/-- The sector size in the constructor (wfs_file_base.cpp:132-152): if `GetFullPathNameA` fails the member is set to
512; otherwise the local variable of line 143 hides the member, which stays as it is. -/
def setSector (os : Os) : M Unit := fun s =>
  if !s.mode.rdonly && s.mode.direct then
    if os.fails s.calls then (.ok (), { s.tick with bps := some 512 })
    else (.ok (), s.tick.tick)
  else (.ok (), s)

/-- The constructor (wfs_file_base.cpp:120-153).  The members and the file are as in `s`; if it throws, the destructor
does not run, so an open handle stays open. -/
def construct (os : Os) (b : Build) (m : Mode) (file : Option File) (readonly : Bool) : Out Unit × St :=
  M.bind (openImpl os b m) (fun h s =>
    let s := { s with fd := h, needAlign := m.direct }
    M.bind (if m.noLock then (fun s => (.ok (), s)) else lock os) (fun _ => setSector os) s)
    { file := file, readonly := readonly, mode := m }

/-- `CloseHandle` with an exception if it fails, `file_des_ = INVALID_HANDLE_VALUE` (167-170,
211-214, 233-236).  The lock ends with the handle. -/
def closeHandle (os : Os) : M Unit := fun s =>
  if os.fails s.calls then (.throws, s.tick) else (.ok (), { s.tick with fd := none })

/-- `close` (wfs_file_base.cpp:160-171). -/
def close (os : Os) : M Unit := fun s =>
  match s.fd with
  | none => (.ok (), s)
  | some _ => closeHandle os s

/-- `_size`, `size` (wfs_file_base.cpp:183-196). -/
def size (os : Os) : M Nat := fun s =>
  match s.fd, s.file with
  | some _, some f => if os.fails s.calls then (.throws, s.tick) else (.ok f.size, s.tick)
  | _, _ => (.throws, s.tick)

/-- A file with a new end (wfs_file_base.cpp:225). -/
def endAt (os : Os) (f : File) (n : Nat) : File :=
  { size := n, byte := fun i => if i < n then (if i < f.size then f.byte i else os.junk i) else 0 }

/-- `SetFilePointerEx` (218, wincall_file.cpp:45): fails for negative positions, and for positions
that are not multiples of the sector size if the handle is not buffered. -/
def seek (os : Os) (pos : Nat) : M Unit := fun s =>
  match s.fd with
  | none => (.throws, s.tick)
  | some h =>
    if os.fails s.calls || 2 ^ 63 ≤ pos || (h.unbuf && pos % os.sector ≠ 0) then (.throws, s.tick)
    else (.ok (), s.tick)

/-- `SetEndOfFile` (wfs_file_base.cpp:225) at position `n`. -/
def setEnd (os : Os) (n : Nat) : M Unit := fun s =>
  match s.fd, s.file with
  | some h, some f =>
    if os.fails s.calls || !h.write then (.throws, s.tick) else (.ok (), { s.tick with file := some (endAt os f n) })
  | _, _ => (.throws, s.tick)

/-- Close the handle and open the file again with another mode (wfs_file_base.cpp:211-215, 233-237). -/
def reopen (os : Os) (b : Build) (m : Mode) : M Unit :=
  M.bind (closeHandle os) (fun _ => M.bind (openImpl os b m) (fun h s => (.ok (), { s with fd := h })))

/-- `set_size` (wfs_file_base.cpp:198-240).  Line 208 reads `bytes_per_sector_` if the mode has DIRECT. -/
def setSize (os : Os) (b : Build) (n : Nat) : M Unit :=
  M.bind (size os) (fun _ s =>
    if s.mode.rdonly then (.ok (), s)
    else
      match s.mode.direct, s.bps with
      | true, none => (.ub, s)
      | true, some 0 => (.ub, s)
      | true, some (k + 1) =>
        if n % (k + 1) ≠ 0 then
          M.bind (reopen os b { wronly := true }) (fun _ => M.bind (seek os n) (fun _ => M.bind (setEnd os n)
            (fun _ => fun s => reopen os b { s.mode with trunc := false } s))) s
        else M.bind (seek os n) (fun _ => setEnd os n) s
      | false, _ => M.bind (seek os n) (fun _ => setEnd os n) s)

/-- `close_remove` (wfs_file_base.cpp:242-246): the result of `DeleteFileA` is not looked at; it does not delete
read-only files. -/
def closeRemove (os : Os) : M Unit :=
  M.bind (close os) (fun _ s =>
    if os.fails s.calls || s.readonly then (.ok (), s.tick) else (.ok (), { s.tick with file := none }))

/-- `WriteFile` of `l` at `off`; what lies between the old end and `off` is not defined (wincall_file.cpp:83-103). -/
def writeAt (os : Os) (f : File) (off : Nat) (l : List UInt8) : File :=
  if l = [] then f
  else { size := max f.size (off + l.length)
         byte := fun i => if off ≤ i ∧ i < off + l.length then l.getD (i - off) 0
                          else if i < f.size then f.byte i
                          else if i < off then os.junk i else 0 }

/-- `wincall_file::serve` for a read (wincall_file.cpp:32-82): returns the new buffer.  `(DWORD)bytes`
in line 66 keeps 32 bits; a handle without buffering needs multiples of the sector size. -/
def serveRead (os : Os) (b : Build) (buf : List UInt8) (off bytes : Nat) : M (List UInt8) :=
  M.bind (seek os off) (fun _ s =>
    if !b.ndebug && 2 ^ 32 ≤ bytes then (.abort, s)
    else
      let n := bytes % 2 ^ 32
      match s.fd, s.file with
      | some h, some f =>
        if os.fails s.calls || !h.read || (h.unbuf && n % os.sector ≠ 0) then (.throws, s.tick)
        else
          let rc := min (os.most s.calls) (min n (f.size - off))
          if rc ≠ bytes then (.throws, s.tick) else (.ok (store buf 0 (pread f off rc)), s.tick)
      | _, _ => (.throws, s.tick))

/-- The same for a write (wincall_file.cpp:83-103): what was written before a short write is noticed stays written. -/
def serveWrite (os : Os) (b : Build) (buf : List UInt8) (off bytes : Nat) : M Unit :=
  M.bind (seek os off) (fun _ s =>
    if !b.ndebug && 2 ^ 32 ≤ bytes then (.abort, s)
    else
      let n := bytes % 2 ^ 32
      match s.fd, s.file with
      | some h, some f =>
        if os.fails s.calls || !h.write || (h.unbuf && n % os.sector ≠ 0) then (.throws, s.tick)
        else
          let rc := min (os.most s.calls) n
          (if rc ≠ bytes then .throws else .ok (), { s.tick with file := some (writeAt os f off (buf.take rc)) })
      | _, _ => (.throws, s.tick))

end Foxxll.Win
