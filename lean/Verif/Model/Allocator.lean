/-
Model of `foxxll::disk_block_allocator`
(/repo/foxxll/mng/disk_block_allocator.hpp and .cpp).
-/
namespace Foxxll.Alloc

/-- A (position, size) pair of the free-space map, the C++ `place`
(disk_block_allocator.hpp:124). -/
abbrev Region := Nat × Nat

/-- `std::map<uint64_t, uint64_t>` (disk_block_allocator.hpp:125) as an
association list kept sorted by key.  Simplification: 64-bit integers are
natural numbers (no wrap-around). -/
abbrev SpaceMap := List Region

/-- `free_space_.erase(it)` for the element with key `k`
(disk_block_allocator.cpp:112,123,137,145 and .hpp:231). -/
def SpaceMap.erase (m : SpaceMap) (k : Nat) : SpaceMap :=
  m.filter (fun r => r.1 != k)

/-- `free_space_[k] = v` (disk_block_allocator.cpp:151, .hpp:234): insert or
overwrite, keeping the keys ordered. -/
def SpaceMap.put (m : SpaceMap) (k v : Nat) : SpaceMap :=
  m.takeWhile (fun r => r.1 < k) ++ (k, v) :: m.dropWhile (fun r => r.1 ≤ k)

/-- Outcomes other than normal return. `badExtAlloc` is the C++ exception
`foxxll::bad_ext_alloc`, `assertFail` a violated `assert` (undefined behaviour
when compiled with NDEBUG) (disk_block_allocator.cpp:83-88, 94-99, 106, disk_block_allocator.hpp:180-185, 242, 253). -/
inductive Err where
  | badExtAlloc
  | assertFail
deriving DecidableEq, Repr

/-- Data members of `disk_block_allocator` (disk_block_allocator.hpp:129-134).
The backing file is represented only by its size, which the code always keeps
equal to `disk_bytes_` (`storage_->set_size`, line 152); the mutex is not
modelled because `block_manager` serialises all calls. -/
structure Disk where
  /-- `free_space_` -/
  free : SpaceMap
  /-- `free_bytes_` -/
  freeBytes : Nat
  /-- `disk_bytes_` -/
  diskBytes : Nat
  /-- `cfg_bytes_` -/
  cfgBytes : Nat
  /-- `autogrow_` -/
  autogrow : Bool
deriving DecidableEq, Repr

/-- `free_space_.upper_bound(pos)` (disk_block_allocator.cpp:75): first region
with key greater than `pos`; `none` is `end()`. -/
def SpaceMap.upperBound (m : SpaceMap) (pos : Nat) : Option Region :=
  m.find? (fun r => pos < r.1)

/-- `pred` as computed in disk_block_allocator.cpp:76-79: the element before
`succ`, or `succ` itself if `succ` is `begin()`. -/
def SpaceMap.predOf (m : SpaceMap) (pos : Nat) : Option Region :=
  match (m.filter (fun r => r.1 ≤ pos)).getLast? with
  | some p => some p
  | none => m.upperBound pos

/-- `disk_block_allocator::add_free_region` (disk_block_allocator.cpp:65-153).
The early branch `free_space_.empty()` skips all checks; the other branches
follow the code one by one.  Line 104-107 and 129-132 (`assert(false)`) are kept
as `assertFail`. -/
def addFreeRegion (d : Disk) (blockPos blockSize : Nat) : Except Err Disk :=
  let finish (m : SpaceMap) (rp rs : Nat) : Except Err Disk :=
    -- lines 151-152
    .ok { d with free := m.put rp rs, freeBytes := d.freeBytes + blockSize }
  if d.free.isEmpty then finish d.free blockPos blockSize
  else
    let succ := d.free.upperBound blockPos
    let pred := d.free.predOf blockPos
    -- lines 81-90
    let predOverlap := match pred with
      | some p => decide (p.1 ≤ blockPos) && decide (p.1 + p.2 > blockPos)
      | none => false
    -- lines 92-101
    let succOverlap := match succ with
      | some s => decide (blockPos ≤ s.1) && decide (blockPos + blockSize > s.1)
      | none => false
    if predOverlap then .error .badExtAlloc
    else if succOverlap then .error .badExtAlloc
    else
      match succ with
      | none =>
        -- lines 103-114
        match pred with
        | none => .error .assertFail
        | some p =>
          if p.1 + p.2 = blockPos then
            finish (d.free.erase p.1) p.1 (blockSize + p.2)
          else finish d.free blockPos blockSize
      | some s =>
        if d.free.length > 1 then
          -- lines 116-140
          let succNotFirst := d.free.head? != some s
          let (m1, size1) :=
            if s.1 = blockPos + blockSize then
              (d.free.erase s.1, blockSize + s.2)
            else (d.free, blockSize)
          if succNotFirst then
            match pred with
            | none => .error .assertFail
            | some p =>
              if p.1 + p.2 = blockPos then
                finish (m1.erase p.1) p.1 (size1 + p.2)
              else finish m1 blockPos size1
          else finish m1 blockPos size1
        else
          -- lines 141-147
          if s.1 = blockPos + blockSize then
            finish (d.free.erase s.1) blockPos (blockSize + s.2)
          else finish d.free blockPos blockSize

/-- `disk_block_allocator::grow_file` (disk_block_allocator.hpp:147-155).  If
`add_free_region` threw, `disk_bytes_` would stay unchanged (line 154 not
reached). -/
def growFile (d : Disk) (extend : Nat) : Except Err Disk :=
  if extend = 0 then .ok d
  else
    match addFreeRegion d d.diskBytes extend with
    | .error e => .error e
    | .ok d' => .ok { d' with diskBytes := d'.diskBytes + extend }

/-- The constructor (disk_block_allocator.hpp:50-57): start empty and grow to
the configured size. -/
def Disk.create (cfgSize : Nat) (autogrow : Bool) : Except Err Disk :=
  growFile { free := [], freeBytes := 0, diskBytes := 0,
             cfgBytes := cfgSize, autogrow := autogrow } cfgSize

/-- The loop of disk_block_allocator.hpp:236-240 assigning consecutive offsets. -/
def layout (pos : Nat) : List Nat → List Nat
  | [] => []
  | s :: ss => pos :: layout (pos + s) ss

/-- `std::find_if` of disk_block_allocator.hpp:198-204 and 219-224. -/
def findSpace (m : SpaceMap) (req : Nat) : Option Region :=
  m.find? (fun r => req ≤ r.2)

/-- `disk_block_allocator::new_blocks` (disk_block_allocator.hpp:158-260) for
blocks of the given sizes; on success the offsets, in order.  The final state is
returned in any case, since an exception in the second recursive call leaves the
effects of the first one.  The recursion on halves (257-259) is sequential, the
lock being released in between (line 255) is harmless because `block_manager`
holds its own mutex. -/
def newBlocks (d : Disk) (sizes : List Nat) : Disk × Except Err (List Nat) :=
  let req := sizes.sum
  -- lines 177-194
  let grown : Except Err Disk :=
    if d.freeBytes < req then
      if d.autogrow then growFile d req else .error .badExtAlloc
    else .ok d
  match grown with
  | .error e => (d, .error e)
  | .ok d1 =>
    -- lines 198-225
    let found : Except Err (Disk × Option Region) :=
      match findSpace d1.free req with
      | some r => .ok (d1, some r)
      | none =>
        if sizes.length = 1 then
          match growFile d1 req with
          | .error e => .error e
          | .ok d2 => .ok (d2, findSpace d2.free req)
        else .ok (d1, none)
    match found with
    | .error e => (d1, .error e)
    | .ok (d2, some r) =>
      -- lines 227-247
      let m := d2.free.erase r.1
      let m := if r.2 > req then m.put (r.1 + req) (r.2 - req) else m
      if d2.freeBytes ≥ req then
        ({ d2 with free := m, freeBytes := d2.freeBytes - req },
         .ok (layout r.1 sizes))
      else (d2, .error .assertFail)
    | .ok (d2, none) =>
      -- lines 253-259
      if _h : sizes.length > 1 then
        let mid := sizes.length / 2
        match newBlocks d2 (sizes.take mid) with
        | (d3, .error e) => (d3, .error e)
        | (d3, .ok os1) =>
          match newBlocks d3 (sizes.drop mid) with
          | (d4, .error e) => (d4, .error e)
          | (d4, .ok os2) => (d4, .ok (os1 ++ os2))
      else (d2, .error .assertFail)
termination_by sizes.length
decreasing_by
  · simp only [List.length_take]; omega
  · simp only [List.length_drop]; omega

/-- `disk_block_allocator::delete_block` (disk_block_allocator.hpp:110-120). -/
def deleteBlock (d : Disk) (pos size : Nat) : Except Err Disk :=
  addFreeRegion d pos size

/-- `has_available_space` (disk_block_allocator.hpp:74-77). -/
def Disk.hasAvailableSpace (d : Disk) (bytes : Nat) : Bool :=
  d.autogrow || decide (d.freeBytes ≥ bytes)

/-- `used_bytes` (disk_block_allocator.hpp:84-87). -/
def Disk.usedBytes (d : Disk) : Nat := d.diskBytes - d.freeBytes

end Foxxll.Alloc
