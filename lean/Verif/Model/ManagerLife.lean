import Verif.Model.Alloc64
/-
Construction and destruction of `block_manager`: files, queues and allocators of the disks.

/repo/foxxll/mng/block_manager.cpp:33-94, /repo/foxxll/mng/disk_block_allocator.hpp:50-69, /repo/foxxll/io/disk_queues.cpp:40-60.

What `create_file`, `make_queue` and `new` do is up to an oracle (they succeed or throw).  Left out: paths and options of the files (C75-C82), the configuration of the queue
numbers (they are given), messages, files that vanish when they are closed (`unlink_on_open`).
-/
namespace Foxxll.ManagerLife
open Foxxll.Alloc Foxxll.Alloc64

/-- `disk_config`: `size`, `autogrow`, `queue` (config.hpp:46, 78, 93; used by block_manager.cpp:49-76). -/
structure Cfg where
  size : Nat
  autogrow : Bool
  queue : Nat
deriving DecidableEq, Repr

/-- What happens to one disk: whether `create_file` returns (block_manager.cpp:57), whether a new queue can be made (disk_queues.cpp:52-59), whether there is memory for the
allocator (block_manager.cpp:76), and what `set_size` does in its constructor. -/
structure Ev where
  opens : Bool
  queue : Bool
  mem : Bool
  can : Nat → Bool

/-- Sizes of the files of the disks, file objects (`disk_files_`), allocator objects on the heap (`block_allocators_`), and queues of `disk_queues` (block_manager.hpp:140-143, disk_queues.hpp:49). -/
structure World where
  sizes : Nat → Nat
  files : List Nat
  allocs : List Nat
  queues : List Nat

/-- Exceptions of the constructor (block_manager.cpp:57-76). -/
inductive Exc
  | openFile | queue | mem | alloc (e : Err64)
deriving DecidableEq, Repr

/-- Size of one file (set_size: disk_block_allocator.hpp:152). -/
def setSize (sizes : Nat → Nat) (i n : Nat) : Nat → Nat := fun j => if j = i then n else sizes j

/-- Queues after a call of `make_queue` that returned (disk_queues.cpp:44-59). -/
def makeQueue (qs : List Nat) (q : Nat) : List Nat := if q ∈ qs then qs else q :: qs

/-- One turn of the loop (block_manager.cpp:49-76).  If the constructor of the allocator throws, its memory is freed by the language. -/
def buildDisk (w : World) (i : Nat) (c : Cfg) (e : Ev) : World × Except Exc Disk64 :=
  if e.opens = false then (w, .error .openFile)
  else
    let w1 := { w with files := i :: w.files }
    if c.queue ∉ w.queues ∧ e.queue = false then (w1, .error .queue)
    else
      let w2 := { w1 with queues := makeQueue w.queues c.queue }
      if e.mem = false then (w2, .error .mem)
      else
        match create e.can (w.sizes i) c.size c.autogrow with
        | (d, .ok ()) => ({ w2 with allocs := i :: w.allocs, sizes := setSize w.sizes i d.file }, .ok d)
        | (d, .error x) => ({ w2 with sizes := setSize w.sizes i d.file }, .error (.alloc x))

/-- The loop (block_manager.cpp:47-77) from disk `i` on. -/
def buildFrom (w : World) (i : Nat) : List (Cfg × Ev) → World × Except Exc (List Disk64)
  | [] => (w, .ok [])
  | (c, e) :: l =>
    match buildDisk w i c e with
    | (w1, .error x) => (w1, .error x)
    | (w1, .ok d) =>
      match buildFrom w1 (i + 1) l with
      | (w2, .error x) => (w2, .error x)
      | (w2, .ok ds) => (w2, .ok (d :: ds))

/-- The constructor (block_manager.cpp:33-84).  After an exception the members are destroyed: `disk_files_` closes the files,
`block_allocators_` is a vector of plain pointers (block_manager.hpp:140-143). -/
def construct (w : World) (l : List (Cfg × Ev)) : World × Except Exc (List Disk64) :=
  match buildFrom w 0 l with
  | (w1, .error x) => ({ w1 with files := w.files }, .error x)
  | (w1, .ok ds) => (w1, .ok ds)

/-- The loop of the destructor (block_manager.cpp:89-94) for the disks below `ds.length`, given in reverse order; `can i` is the file of disk `i`.  An exception of `set_size` leaves a
destructor, which ends the program: `none`. -/
def destroyRev (can : Nat → Nat → Bool) (w : World) : List Disk64 → Option World
  | [] => some w
  | d :: ds =>
    let i := ds.length
    match destroy64 (can i) d with
    | none => none
    | some n => destroyRev can { w with sizes := setSize w.sizes i n, allocs := w.allocs.erase i, files := w.files.erase i } ds

/-- The destructor (block_manager.cpp:86-94): the last disk first. -/
def destroy (can : Nat → Nat → Bool) (w : World) (ds : List Disk64) : Option World := destroyRev can w ds.reverse

end Foxxll.ManagerLife
