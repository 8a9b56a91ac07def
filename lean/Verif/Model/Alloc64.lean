/-
Model of `foxxll::disk_block_allocator` (/repo/foxxll/mng/disk_block_allocator.hpp
and .cpp) with the arithmetic of `uint64_t` and with a backing file whose
`set_size` may fail.  `Model/Allocator.lean` has natural numbers and a file that
always grows.
-/
import Verif.Model.Allocator

namespace Foxxll.Alloc64
open Foxxll.Alloc

/-- Values of `uint64_t` (disk_block_allocator.hpp:124-132) are the numbers below
this one. -/
def W : Nat := 2 ^ 64

/-- Reduction modulo `2^64`, as done by each `+` of two `uint64_t`
(disk_block_allocator.hpp:152, 154, 166, 234, 239; disk_block_allocator.cpp:82,
93, 108, 110, 120, 122, 133, 135, 142, 144, 152). -/
def w (n : Nat) : Nat := n % W

/-- The allocator (disk_block_allocator.hpp:129-134) and the size of the file
`storage_`, set by `set_size` (ufs_file_base.cpp:237-281, memory_file.cpp:64-71). -/
structure Disk64 where
  disk : Disk
  /-- size of the file -/
  file : Nat
deriving DecidableEq, Repr

/-- Abnormal outcomes: those of the allocator (disk_block_allocator.hpp:180-185,
242, 253, disk_block_allocator.cpp:83-88, 94-99, 106, 131) and the exception `io_error` of
`set_size` (ufs_file_base.cpp:267-270). -/
inductive Err64 where
  | alloc (e : Err)
  | io
deriving DecidableEq, Repr

/-- `disk_block_allocator::add_free_region` (disk_block_allocator.cpp:65-153), each
sum modulo `2^64`. -/
def addFree (d : Disk) (blockPos blockSize : Nat) : Except Err Disk :=
  let finish (m : SpaceMap) (rp rs : Nat) : Except Err Disk :=
    -- lines 151-152
    .ok { d with free := m.put rp rs, freeBytes := w (d.freeBytes + blockSize) }
  if d.free.isEmpty then finish d.free blockPos blockSize
  else
    let succ := d.free.upperBound blockPos
    let pred := d.free.predOf blockPos
    -- lines 81-90
    let predOverlap := match pred with
      | some p => decide (p.1 ≤ blockPos) && decide (w (p.1 + p.2) > blockPos)
      | none => false
    -- lines 92-101
    let succOverlap := match succ with
      | some s => decide (blockPos ≤ s.1) && decide (w (blockPos + blockSize) > s.1)
      | none => false
    if predOverlap then .error .badExtAlloc
    else if succOverlap then .error .badExtAlloc
    else
      match succ with
      | none =>
        -- lines 103-114
        match pred with
        | none => .error .assertFail
        | some p =>
          if w (p.1 + p.2) = blockPos then
            finish (d.free.erase p.1) p.1 (w (blockSize + p.2))
          else finish d.free blockPos blockSize
      | some s =>
        if d.free.length > 1 then
          -- lines 116-140
          let succNotFirst := d.free.head? != some s
          let (m1, size1) :=
            if s.1 = w (blockPos + blockSize) then
              (d.free.erase s.1, w (blockSize + s.2))
            else (d.free, blockSize)
          if succNotFirst then
            match pred with
            | none => .error .assertFail
            | some p =>
              if w (p.1 + p.2) = blockPos then
                finish (m1.erase p.1) p.1 (w (size1 + p.2))
              else finish m1 blockPos size1
          else finish m1 blockPos size1
        else
          -- lines 141-147
          if s.1 = w (blockPos + blockSize) then
            finish (d.free.erase s.1) blockPos (w (blockSize + s.2))
          else finish d.free blockPos blockSize

/-- `disk_block_allocator::grow_file` (disk_block_allocator.hpp:147-155).  `can n`
tells whether `storage_->set_size(n)` succeeds (ufs_file_base.cpp:267-270; an
oracle: file system full, file too large).  The file is resized before
`add_free_region` may throw. -/
def grow (can : Nat → Bool) (s : Disk64) (extend : Nat) : Disk64 × Except Err64 Unit :=
  if extend = 0 then (s, .ok ())
  else
    let n := w (s.disk.diskBytes + extend)
    if can n then
      match addFree s.disk s.disk.diskBytes extend with
      | .error e => ({ s with file := n }, .error (.alloc e))
      | .ok d => (⟨{ d with diskBytes := n }, n⟩, .ok ())
    else (s, .error .io)

/-- The constructor (disk_block_allocator.hpp:50-57) on a file of `file` bytes. -/
def create (can : Nat → Bool) (file cfgSize : Nat) (autogrow : Bool) :
    Disk64 × Except Err64 Unit :=
  grow can ⟨{ free := [], freeBytes := 0, diskBytes := 0,
              cfgBytes := cfgSize, autogrow := autogrow }, file⟩ cfgSize

/-- `requested_size`, the loop of disk_block_allocator.hpp:161-167. -/
def reqSize (sizes : List Nat) : Nat := sizes.foldl (fun a z => w (a + z)) 0

/-- The loop of disk_block_allocator.hpp:236-240. -/
def layout64 (pos : Nat) : List Nat → List Nat
  | [] => []
  | z :: zs => pos :: layout64 (w (pos + z)) zs

/-- `disk_block_allocator::new_blocks` (disk_block_allocator.hpp:158-260).  The
recursion on halves (257-259) is sequential; the lock is free in between (255),
but `block_manager` holds its own mutex (block_manager.hpp:170, 253).  A subtraction
at 234 is guarded by 233, the one at 243 by the assertion at 242. -/
def newBlocks64 (can : Nat → Bool) (s : Disk64) (sizes : List Nat) :
    Disk64 × Except Err64 (List Nat) :=
  let req := reqSize sizes
  -- lines 177-194
  let grown : Disk64 × Except Err64 Unit :=
    if s.disk.freeBytes < req then
      if s.disk.autogrow then grow can s req else (s, .error (.alloc .badExtAlloc))
    else (s, .ok ())
  match grown with
  | (s1, .error e) => (s1, .error e)
  | (s1, .ok ()) =>
    -- lines 198-225
    let found : Disk64 × Except Err64 (Option Region) :=
      match findSpace s1.disk.free req with
      | some r => (s1, .ok (some r))
      | none =>
        if sizes.length = 1 then
          match grow can s1 (sizes.headD 0) with
          | (s2, .error e) => (s2, .error e)
          | (s2, .ok ()) => (s2, .ok (findSpace s2.disk.free req))
        else (s1, .ok none)
    match found with
    | (s2, .error e) => (s2, .error e)
    | (s2, .ok (some r)) =>
      -- lines 227-247
      let m := s2.disk.free.erase r.1
      let m := if r.2 > req then m.put (w (r.1 + req)) (r.2 - req) else m
      if s2.disk.freeBytes ≥ req then
        ({ s2 with disk := { s2.disk with free := m, freeBytes := s2.disk.freeBytes - req } },
         .ok (layout64 r.1 sizes))
      else (s2, .error (.alloc .assertFail))
    | (s2, .ok none) =>
      -- lines 253-259
      if _h : sizes.length > 1 then
        let mid := sizes.length / 2
        match newBlocks64 can s2 (sizes.take mid) with
        | (s3, .error e) => (s3, .error e)
        | (s3, .ok os1) =>
          match newBlocks64 can s3 (sizes.drop mid) with
          | (s4, .error e) => (s4, .error e)
          | (s4, .ok os2) => (s4, .ok (os1 ++ os2))
      else (s2, .error (.alloc .assertFail))
termination_by sizes.length
decreasing_by
  · simp only [List.length_take]; omega
  · simp only [List.length_drop]; omega

/-- `disk_block_allocator::delete_block` (disk_block_allocator.hpp:110-120). -/
def delete64 (s : Disk64) (pos size : Nat) : Disk64 × Except Err64 Unit :=
  match addFree s.disk pos size with
  | .error e => (s, .error (.alloc e))
  | .ok d => ({ s with disk := d }, .ok ())

/-- The destructor (disk_block_allocator.hpp:64-69); a failing `set_size` in it
ends the program (destructors are `noexcept`), `none`. -/
def destroy64 (can : Nat → Bool) (s : Disk64) : Option Nat :=
  if s.disk.diskBytes > s.disk.cfgBytes then
    if can s.disk.cfgBytes then some s.disk.cfgBytes else none
  else some s.file

end Foxxll.Alloc64
