/-
Model of `foxxll::block_manager` (/repo/foxxll/mng/block_manager.hpp, .cpp) and
of the block identifiers it hands out (/repo/foxxll/mng/bid.hpp).
-/
import Verif.Model.Allocator

namespace Foxxll.Mgr
open Foxxll.Alloc

/-- The `storage` pointer of a BID (bid.hpp:48,116): null, the file of a managed
disk (identified by its allocator id), or a user file with
`get_allocator_id() == NO_ALLOCATOR`. -/
inductive Storage where
  | null
  | managed (disk : Nat)
  | foreign
deriving DecidableEq, Repr

/-- `BID<tmpl>` (bid.hpp:38-163).  For `tmpl > 0` the C++ `size` is the static
constant `tmpl`; for `BID<0>` it is a field. -/
structure Bid where
  storage : Storage
  off : Nat
  size : Nat
  tmpl : Nat
deriving DecidableEq, Repr

/-- Data members of `block_manager` (block_manager.hpp:137-152).  The disk files
are represented by their indices.  The counters are unsigned 64-bit in the code;
`cur` is an `Int` here so that an underflow would be visible. -/
structure Manager where
  disks : List Disk
  total : Nat
  cur : Int
  max : Int
deriving DecidableEq

/-- Abnormal outcomes: an exception of the allocator, or an out-of-bounds access
`block_allocators_[disk_id]` (undefined behaviour) if the functor returns a
non-existing disk (block_manager.hpp:190, disk_block_allocator.hpp:158-260). -/
inductive MErr where
  | alloc (e : Err)
  | outOfRange
deriving DecidableEq, Repr

/-- The test `block_allocators_[d]->has_available_space(disk_bytes[d] + size)`
(block_manager.hpp:190-192,199-201). -/
def room (disks : List Disk) (bytes : Nat → Nat) (size d : Nat) : Bool :=
  match disks[d]? with
  | some dk => dk.hasAvailableSpace (bytes d + size)
  | none => false

/-- Choice of the disk for one block (block_manager.hpp:188-209). -/
def choose (disks : List Disk) (bytes : Nat → Nat) (want size : Nat) : Nat :=
  if room disks bytes size want then want
  else
    match ((List.range (disks.length - 1)).map
        (fun k => (want + (k + 1)) % disks.length)).find? (room disks bytes size) with
    | some d => d
    | none => want

/-- The loop over the requested blocks (block_manager.hpp:185-215): the disk for
each block.  `bytes` is `disk_bytes`, `i` the argument of the functor
(`alloc_offset + i`).  `disk_blocks`/`disk_out` are recovered from the result. -/
def assign (disks : List Disk) (f : Nat → Nat) :
    (Nat → Nat) → Nat → List Nat → Except MErr (List Nat)
  | _, _, [] => .ok []
  | bytes, i, sz :: rest =>
    if f i < disks.length then
      let d := choose disks bytes (f i) sz
      match assign disks f (fun x => if x = d then bytes x + sz else bytes x) (i + 1) rest with
      | .ok as => .ok (d :: as)
      | .error e => .error e
    else .error .outOfRange

/-- `bids` collected for disk `d` (block_manager.hpp:229-230): the sizes of the
blocks assigned to it, in order. -/
def gather (d : Nat) : List Nat → List Nat → List Nat
  | a :: as, s :: ss => if a = d then s :: gather d as ss else gather d as ss
  | _, _ => []

/-- Distribution back to the output range (block_manager.hpp:236-240). -/
def scatter (d : Nat) : List Nat → List Nat → List Bid → List Bid
  | a :: as, offs, b :: bs =>
    if a = d then
      match offs with
      | o :: os => { b with storage := .managed d, off := o } :: scatter d as os bs
      | [] => b :: scatter d as [] bs
    else b :: scatter d as offs bs
  | _, _, bs => bs

/-- The loop over the disks (block_manager.hpp:221-245).  On an exception the
effects of the disks already processed stay. -/
def allocLoop (asg : List Nat) : List Nat → Manager → List Bid →
    Manager × List Bid × Except MErr Unit
  | [], m, out => (m, out, .ok ())
  | d :: ds, m, out =>
    let sizes := gather d asg (out.map Bid.size)
    if sizes = [] then allocLoop asg ds m out
    else
      match m.disks[d]? with
      | none => (m, out, .error .outOfRange)
      | some dk =>
        match newBlocks dk sizes with
        | (dk', .error e) => ({ m with disks := m.disks.set d dk' }, out, .error (.alloc e))
        | (dk', .ok offs) =>
          allocLoop asg ds
            { m with disks := m.disks.set d dk'
                     total := m.total + sizes.sum
                     cur := m.cur + sizes.sum }
            (scatter d asg offs out)

/-- `block_manager::new_blocks` (block_manager.hpp:164-248).  `out` is the range
of BIDs to fill (their sizes are inputs).  The last component tells whether an
exception was thrown, in which case line 247 is not executed. -/
def Manager.newBlocks (m : Manager) (f : Nat → Nat) (allocOffset : Nat) (out : List Bid) :
    Manager × List Bid × Except MErr Unit :=
  match assign m.disks f (fun _ => 0) allocOffset (out.map Bid.size) with
  | .error e => (m, out, .error e)
  | .ok asg =>
    match allocLoop asg (List.range m.disks.length) m out with
    | (m', out', .error e) => (m', out', .error e)
    | (m', out', .ok ()) => ({ m' with max := Max.max m'.max m'.cur }, out', .ok ())

/-- `block_manager::delete_block` (block_manager.hpp:250-268).  Line 267 subtracts
the template parameter `BlockSize`, which is 0 for `BID<0>`.  `file::discard`
(265) has no effect on the bookkeeping. -/
def Manager.deleteBlock (m : Manager) (b : Bid) : Except MErr Manager :=
  match b.storage with
  | .null => .ok m
  | .foreign => .ok m
  | .managed d =>
    match m.disks[d]? with
    | none => .error .outOfRange
    | some dk =>
      match Alloc.deleteBlock dk b.off b.size with
      | .error e => .error (.alloc e)
      | .ok dk' => .ok { m with disks := m.disks.set d dk', cur := m.cur - b.tmpl }

/-- The allocators created by the constructor (block_manager.cpp:47-77), one per
configured disk (size, autogrow). -/
def createDisks : List (Nat × Bool) → Except Err (List Disk)
  | [] => .ok []
  | (sz, ag) :: cs =>
    match Disk.create sz ag, createDisks cs with
    | .ok d, .ok ds => .ok (d :: ds)
    | .error e, _ => .error e
    | _, .error e => .error e

/-- The constructor (block_manager.cpp:33-84): counters start at 0
(block_manager.hpp:146-152). -/
def Manager.create (cfgs : List (Nat × Bool)) : Except Err Manager :=
  match createDisks cfgs with
  | .ok ds => .ok ⟨ds, 0, 0, 0⟩
  | .error e => .error e

/-- `total_bytes()` (block_manager.cpp:97-107). -/
def Manager.totalBytes (m : Manager) : Nat := (m.disks.map Disk.diskBytes).sum

/-- `free_bytes()` (block_manager.cpp:109-119). -/
def Manager.freeBytes (m : Manager) : Nat := (m.disks.map Disk.freeBytes).sum

end Foxxll.Mgr
