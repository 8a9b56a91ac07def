/-
Model of the file implementations: `syscall_file` (/repo/foxxll/io/syscall_file.cpp) on top of
`ufs_file_base` (ufs_file_base.cpp), `memory_file` (memory_file.cpp), `mmap_file` (mmap_file.cpp) and
`fileperblock_file` (fileperblock_file.cpp).

The operating system is an oracle: every call may fail or transfer less than asked for.  Calls on
one file object are serialised by `fd_mutex_` / `mutex_`, so each function is one atomic step.
Statistics, logging, O_DIRECT and locks on files are not modelled.
-/
namespace Foxxll.Files

/-! ### Files of the operating system -/

/-- A file as the calls in syscall_file.cpp:40-113 see it: its size and its bytes (zero from the size on). -/
structure File where
  size : Nat
  byte : Nat → UInt8

/-- A new or truncated file (`O_CREAT`, `O_TRUNC`, ufs_file_base.cpp:53-61). -/
def emptyFile : File := { size := 0, byte := fun _ => 0 }

/-- Content of `n` positions from `off`: what `lseek` and `read` (syscall_file.cpp:40, 63) deliver. -/
def pread (f : File) (off n : Nat) : List UInt8 := (List.range n).map (fun i => f.byte (off + i))

/-- POSIX `write` at `off` (syscall_file.cpp:40, 97): a gap behind the old end reads as zero. -/
def pwrite (f : File) (off : Nat) (l : List UInt8) : File :=
  if l = [] then f
  else { size := max f.size (off + l.length)
         byte := fun i => if off ≤ i ∧ i < off + l.length then l.getD (i - off) 0 else f.byte i }

/-- POSIX `ftruncate` (ufs_file_base.cpp:268). -/
def truncate (f : File) (n : Nat) : File := { size := n, byte := fun i => if i < n then f.byte i else 0 }

/-- Answers of the operating system to the calls of one round of the loop in `syscall_file::serve`
(syscall_file.cpp:40, 63, 83, 97). -/
structure Sys where
  /-- `lseek` fails -/
  seekFails : Bool := false
  /-- `read` / `write`: fails, or transfers at most this much -/
  rc : Option Nat
  /-- `_size()` fails -/
  sizeFails : Bool := false

/-- Outcome of a function that changes a file and a buffer: return or exception (syscall_file.cpp:43-54, 66-77, 100-111). -/
inductive Out
  | done (f : File) (buf : List UInt8)
  /-- `io_error`; what has been transferred stays transferred -/
  | throws (f : File) (buf : List UInt8)
  /-- not enough fuel (does not happen, `Proofs/Files.lean`) -/
  | fuel

/-- `memcpy(buf + pos, l)`, as in memory_file.cpp:39 and for the results of `read` (syscall_file.cpp:63). -/
def store (buf : List UInt8) (pos : Nat) (l : List UInt8) : List UInt8 :=
  buf.take pos ++ l ++ buf.drop (pos + l.length)

/-- The loop of `syscall_file::serve` for a read (syscall_file.cpp:38-90).  `c` counts the rounds,
`pos` is `cbuffer - buffer`.  An offset from 2^63 on is negative as `off_t` and refused by `lseek`. -/
def readLoop (os : Nat → Sys) (f : File) : Nat → Nat → List UInt8 → Nat → Nat → Nat → Out
  | 0, _, _, _, _, _ => .fuel
  | fuel + 1, c, buf, pos, off, bytes =>
    if bytes = 0 then .done f buf
    else if (os c).seekFails ∨ 2 ^ 63 ≤ off then .throws f buf
    else match (os c).rc with
      | none => .throws f buf
      | some k =>
        let rc := min k (min bytes (f.size - off))
        if rc = 0 then .throws f buf
        else
          let buf1 := store buf pos (pread f off rc)
          if bytes - rc > 0 then
            if (os c).sizeFails then .throws f buf1
            else if off + rc = f.size then .done f (store buf1 (pos + rc) (List.replicate (bytes - rc) 0))
            else readLoop os f fuel (c + 1) buf1 (pos + rc) (off + rc) (bytes - rc)
          else readLoop os f fuel (c + 1) buf1 (pos + rc) (off + rc) (bytes - rc)

/-- The loop for a write (syscall_file.cpp:38-55, 91-117). -/
def writeLoop (os : Nat → Sys) : Nat → Nat → File → List UInt8 → Nat → Nat → Nat → Out
  | 0, _, _, _, _, _, _ => .fuel
  | fuel + 1, c, f, buf, pos, off, bytes =>
    if bytes = 0 then .done f buf
    else if (os c).seekFails ∨ 2 ^ 63 ≤ off then .throws f buf
    else match (os c).rc with
      | none => .throws f buf
      | some k =>
        let rc := min k bytes
        if rc = 0 then .throws f buf
        else writeLoop os fuel (c + 1) (pwrite f off ((buf.drop pos).take rc)) buf (pos + rc) (off + rc) (bytes - rc)

/-- `syscall_file::serve` (syscall_file.cpp:28-118) for a read; the statistics are left out. -/
def serveRead (os : Nat → Sys) (f : File) (buf : List UInt8) (off bytes : Nat) : Out :=
  readLoop os f (bytes + 1) 0 buf 0 off bytes

/-- `syscall_file::serve` (syscall_file.cpp:28-118) for a write. -/
def serveWrite (os : Nat → Sys) (f : File) (buf : List UInt8) (off bytes : Nat) : Out :=
  writeLoop os (bytes + 1) 0 f buf 0 off bytes

/-- `ufs_file_base::_set_size` (ufs_file_base.cpp:237-281) of a regular file: without effect if
opened with RDONLY.  The `lseek` of line 277 cannot fail behind a successful `ftruncate`. -/
def setSize (rdonly fails : Bool) (f : File) (n : Nat) : Option File :=
  if rdonly then some f else if fails then none else some (truncate f n)

/-! ### `mmap_file` -/

/-- Outcome of `mmap_file::serve` (mmap_file.cpp:26-69). -/
inductive MOut
  | done (f : File) (buf : List UInt8)
  | throws (f : File) (buf : List UInt8)
  /-- SIGBUS: access to a page wholly behind the end of the file -/
  | sigbus

/-- Bytes stored through a shared mapping (mmap_file.cpp:37, 62): what is behind the end of the file is never written
(POSIX `mmap`). -/
def mapWrite (f : File) (off : Nat) (l : List UInt8) : File :=
  { size := f.size, byte := fun i => if off ≤ i ∧ i < off + l.length ∧ i < f.size then l.getD (i - off) 0 else f.byte i }

/-- `mmap_file::serve` (mmap_file.cpp:26-69): `mmap` refuses an empty range and an offset that is
not a multiple of the page size; `mapFails`, `unmapFails`: other failures.  The rest of the last page
reads as zero. -/
def serveMmap (page : Nat) (mapFails unmapFails write : Bool) (f : File) (buf : List UInt8) (off bytes : Nat) : MOut :=
  if bytes = 0 ∨ off % page ≠ 0 ∨ mapFails then .throws f buf
  else if (f.size + page - 1) / page * page < off + bytes then .sigbus
  else
    let f1 := if write then mapWrite f off (buf.take bytes) else f
    let buf1 := if write then buf else store buf 0 (pread f off bytes)
    if unmapFails then .throws f1 buf1 else .done f1 buf1

/-! ### `memory_file` -/

/-- `ptr_` with the memory it points to, and `size_` (memory_file.hpp:31-36). -/
structure Mem where
  ptr : Option (List UInt8)
  size : Nat

/-- Outcomes of the functions of `memory_file` (memory_file.cpp:26-93); none of them throws. -/
inductive MemRes (α : Type)
  | ok (a : α)
  /-- access outside of the memory, or through a null pointer -/
  | ub

/-- Constructor (memory_file.hpp:43-49). -/
def Mem.init : Mem := { ptr := none, size := 0 }

/-- `serve` for a read (memory_file.cpp:31-35). -/
def Mem.read (m : Mem) (off n : Nat) : MemRes (List UInt8) :=
  match m.ptr with
  | none => if n = 0 then .ok [] else .ub
  | some l => if off + n ≤ l.length then .ok ((l.drop off).take n) else .ub

/-- `serve` for a write (memory_file.cpp:36-40). -/
def Mem.write (m : Mem) (off : Nat) (d : List UInt8) : MemRes Mem :=
  match m.ptr with
  | none => if d = [] then .ok m else .ub
  | some l => if off + d.length ≤ l.length then .ok { m with ptr := some (store l off d) } else .ub

/-- `set_size` (memory_file.cpp:64-71): `realloc` fails (`none`) or provides new memory with unspecified bytes `g`
behind the old ones.  Its result is stored without a test. -/
def Mem.setSize (m : Mem) (n : Nat) (realloc : Option (Nat → UInt8)) : Mem :=
  match realloc with
  | none => { ptr := none, size := n }
  | some g =>
    let old := m.ptr.getD []
    { ptr := some (old.take n ++ (List.range (n - old.length)).map g), size := n }

/-- `discard` (memory_file.cpp:73-93): the region is overwritten with uninitialised memory, in pieces of
`BlockAlignment` = 4096 bytes; `malloc` may fail (`none`), then null is copied from. -/
def Mem.discard (m : Mem) (off n : Nat) (malloc : Option (Nat → UInt8)) : MemRes Mem :=
  if n = 0 then .ok m
  else match malloc with
    | none => .ub
    | some g => m.write off ((List.range n).map (fun i => g (i % 4096)))

/-! ### `fileperblock_file` -/

/-- Decimal digits as printed by `operator <<` (fileperblock_file.cpp:66). -/
def decimal : Nat → Nat → List Char
  | 0, _ => []
  | fuel + 1, n => (if n < 10 then [] else decimal fuel (n / 10)) ++ [Char.ofNat (48 + n % 10)]

/-- `setw(w) << setfill('0') << n` (fileperblock_file.cpp:66). -/
def padded (w n : Nat) : List Char :=
  let d := decimal (n + 1) n
  List.replicate (w - d.length) '0' ++ d

/-- `filename_for_block` (fileperblock_file.cpp:62-68). -/
def filenameForBlock (pre : List Char) (off : Nat) : List Char :=
  pre ++ "_fpb_".toList ++ padded 20 off

/-- Name of the lock file (fileperblock_file.cpp:86-88). -/
def lockName (pre : List Char) : List Char := pre ++ "_fpb_lock".toList

/-- The directory tree: what the names of fileperblock_file.cpp:66, 87 refer to. -/
abbrev FS := List Char → Option File

/-- Creating, changing or removing (fileperblock_file.cpp:113) a file. -/
def FS.set (fs : FS) (name : List Char) (f : Option File) : FS := fun n => if n = name then f else fs n

/-- Open modes that matter (file.hpp:64-88, ufs_file_base.cpp:38-61). -/
structure Mode where
  rdonly : Bool := false
  creat : Bool := true
  trunc : Bool := false

/-- What the operating system does during one `serve` of the file (fileperblock_file.cpp:75-78). -/
structure FpbOs where
  /-- `open` fails for other reasons than a missing file -/
  openFails : Bool := false
  /-- `ftruncate` fails -/
  truncFails : Bool := false
  sys : Nat → Sys

/-- Result of a call of `serve` (fileperblock_file.cpp:70-79): the directory tree, the buffer, and whether `io_error` was thrown. -/
structure FpbOut where
  fs : FS
  buf : List UInt8
  threw : Bool

/-- `open` in the constructor of `ufs_file_base` (ufs_file_base.cpp:33-128): the file it finds or
creates. -/
def openFile (mode : Mode) : Option File → Option File
  | none => if mode.creat then some emptyFile else none
  | some f => some (if mode.trunc then emptyFile else f)

/-- `fileperblock_file<syscall_file>::serve` (fileperblock_file.cpp:70-79): open the file of the block (creating or
emptying it as the mode says), set its size, transfer from offset 0. -/
def fpbServe (mode : Mode) (os : FpbOs) (pre : List Char) (fs : FS) (write : Bool) (buf : List UInt8) (off bytes : Nat) : FpbOut :=
  let name := filenameForBlock pre off
  if os.openFails then { fs := fs, buf := buf, threw := true }
  else
    match openFile mode (fs name) with
    | none => { fs := fs, buf := buf, threw := true }
    | some f0 =>
      match setSize mode.rdonly os.truncFails f0 bytes with
      | none => { fs := fs.set name (some f0), buf := buf, threw := true }
      | some f1 =>
        if write && mode.rdonly then { fs := fs.set name (some f1), buf := buf, threw := bytes != 0 }
        else
          match (if write then serveWrite os.sys f1 buf 0 bytes else serveRead os.sys f1 buf 0 bytes) with
          | .done f2 b => { fs := fs.set name (some f2), buf := b, threw := false }
          | .throws f2 b => { fs := fs.set name (some f2), buf := b, threw := true }
          | .fuel => { fs := fs, buf := buf, threw := true }

/-- `discard` (fileperblock_file.cpp:105-119): remove the file of the block; failures (`fails`) are only logged. -/
def fpbDiscard (pre : List Char) (fs : FS) (fails : Bool) (off : Nat) : FS :=
  if fails then fs else fs.set (filenameForBlock pre off) none

end Foxxll.Files
