/-
Model of the tools `benchmark_files` (/repo/tools/benchmark_files.cpp) and `create_files` (/repo/tools/create_files.cpp).

Simplifications: `block_size` is a multiple of `sizeof(uint32_t)` and given in words, memory and files are modelled
by words (all file addresses of a run differ from `offset` by multiples of 4); the file names are those of different
files; `size_t` and `external_size_type` do not overflow; I/O does not throw, but reads may return wrong words (oracle);
times and output other than error messages are left out.
-/
namespace Foxxll.FileBench

/-- Values of `uint32_t` (the elements of `buffer`, benchmark_files.cpp:236). -/
def W : Nat := 2 ^ 32

/-- The parameters (benchmark_files.cpp:102-214) after the replacement of the defaults (192-196); `blockInt` is
`block_size_int` (233). -/
structure Cfg where
  nfiles : Nat
  blockInt : Nat
  batch : Nat
  pattern : Nat
  doWrite : Bool
  doRead : Bool
  doVerify : Bool

/-- `block_size` in bytes (benchmark_files.cpp:110, 192-193). -/
def Cfg.block (c : Cfg) : Nat := c.blockInt * 4

/-- `step_size` (benchmark_files.cpp:232). -/
def Cfg.step (c : Cfg) : Nat := c.block * c.batch

/-- `step_size_int` (benchmark_files.cpp:234). -/
def Cfg.stepInt (c : Cfg) : Nat := c.step / 4

/-- A message about an error: a wrong sector number (benchmark_files.cpp:385-387) or a wrong word (benchmark_files.cpp:400-402). -/
inductive Report
  | sector (file sector : Nat)
  | word (file pos : Nat)
deriving DecidableEq, Repr

/-- `buffer`, the contents of the files, `offset`, `verify_failed`, the messages (benchmark_files.cpp:104, 230, 236-237). -/
structure St where
  buf : Nat → Nat
  med : Nat → Nat → Nat
  offset : Nat
  failed : Bool
  log : List Report

/-- The word written to `buffer[i]` at the start (benchmark_files.cpp:249-250) and by the verification (389, where the cast to `int32_t` and the
assignment to `uint32_t` reduce modulo 2^32 as well). -/
def pat (c : Cfg) (i : Nat) : Nat := if c.pattern ≠ 0 then c.pattern else i % W

/-- The value with which the verification compares (benchmark_files.cpp:395): the type of the conditional expression is `size_t`. -/
def pat64 (c : Cfg) (i : Nat) : Nat := if c.pattern ≠ 0 then c.pattern else i

/-- Assignment `buffer[i] = v` (benchmark_files.cpp:295, 389). -/
def setAt (f : Nat → Nat) (i v : Nat) : Nat → Nat := fun j => if j = i then v else f j

/-- The loop that writes the sector numbers into the buffer (benchmark_files.cpp:292-296), from word `j` and sector number `b` on; the
`current_step_size_int` iterations given as `fuel` are enough. -/
def mark (c : Cfg) : Nat → Nat → Nat → (Nat → Nat) → (Nat → Nat)
  | 0, _, _, buf => buf
  | fuel + 1, j, b, buf =>
    if j < c.stepInt then mark c fuel (j + 128) (b + 1) ((List.range c.nfiles).foldl (fun f i => setAt f (c.stepInt * i + j) (b % W)) buf)
    else buf

/-- The requests of a step (benchmark_files.cpp:298-306, 337-345): (file, block of the batch).  `current_step_size` is `step_size` by the
loop condition (benchmark_files.cpp:278-280), `current_num_blocks` is `div_ceil(step_size, block_size)`. -/
def requests (c : Cfg) : List (Nat × Nat) :=
  (List.range c.nfiles).flatMap fun i => (List.range ((c.step + c.block - 1) / c.block)).map fun j => (i, j)

/-- `awrite` for block `j` of file `i` (benchmark_files.cpp:302-306), executed. -/
def writeBlock (c : Cfg) (off : Nat) (buf : Nat → Nat) (med : Nat → Nat → Nat) (r : Nat × Nat) : Nat → Nat → Nat :=
  fun f a =>
    if f = r.1 ∧ off + r.2 * c.block ≤ a ∧ a < off + r.2 * c.block + c.block ∧ (a - (off + r.2 * c.block)) % 4 = 0 then
      buf (c.stepInt * r.1 + r.2 * c.blockInt + (a - (off + r.2 * c.block)) / 4)
    else med f a

/-- `aread` for block `j` of file `i` (benchmark_files.cpp:341-345), executed: `got` is what the file returns. -/
def readBlock (c : Cfg) (off : Nat) (got : Nat → Nat → Nat) (buf : Nat → Nat) (r : Nat × Nat) : Nat → Nat :=
  fun x =>
    if c.stepInt * r.1 + r.2 * c.blockInt ≤ x ∧ x < c.stepInt * r.1 + r.2 * c.blockInt + c.blockInt then
      got r.1 (off + r.2 * c.block + 4 * (x - (c.stepInt * r.1 + r.2 * c.blockInt)))
    else buf x

/-- The check of one sector number (benchmark_files.cpp:380-389). -/
def checkSector (c : Cfg) (off : Nat) (st : (Nat → Nat) × List Report) (ds : Nat × Nat) : (Nat → Nat) × List Report :=
  let i := ds.1 * c.stepInt + ds.2 * 128 + 42
  let b := off / 512 + ds.2
  (setAt st.1 i (pat c i), if st.1 i ≠ b then st.2 ++ [.sector ds.1 b] else st.2)

/-- The loops over the files and sectors (benchmark_files.cpp:377-391). -/
def checkSectors (c : Cfg) (off : Nat) (buf : Nat → Nat) : (Nat → Nat) × List Report :=
  ((List.range c.nfiles).flatMap fun d => (List.range (c.step / 512)).map fun s => (d, s)).foldl (checkSector c off) (buf, [])

/-- The loop over all words (benchmark_files.cpp:393-408), from word `i` on.  After an error, `i` is set to the first word of the next file and
then incremented by the loop. -/
def checkWords (c : Cfg) (off : Nat) (buf : Nat → Nat) : Nat → Nat → List Report
  | 0, _ => []
  | fuel + 1, i =>
    if i < c.nfiles * c.stepInt then
      if buf i ≠ pat64 c i then
        .word (i / c.stepInt) (off + i % c.stepInt * 4) :: checkWords c off buf fuel ((i / c.stepInt + 1) * c.stepInt + 1)
      else checkWords c off buf fuel (i + 1)
    else []

/-- What a read returns: the word in the file, or another one by the oracle (benchmark_files.cpp:337-351). -/
def returned (out : Nat → Nat → Option Nat) (med : Nat → Nat → Nat) : Nat → Nat → Nat :=
  fun f a => (out f a).getD (med f a)

/-- The write part of a step (benchmark_files.cpp:289-319). -/
def writeStep (c : Cfg) (st : St) : St :=
  if c.doWrite then
    let buf := mark c c.stepInt 42 (st.offset / 512) st.buf
    { st with buf, med := (requests c).foldl (writeBlock c st.offset buf) st.med }
  else st

/-- The read part of a step (benchmark_files.cpp:335-361). -/
def readStep (c : Cfg) (out : Nat → Nat → Option Nat) (st : St) : St :=
  if c.doRead || c.doVerify then
    { st with buf := (requests c).foldl (readBlock c st.offset (returned out st.med)) st.buf }
  else st

/-- The verification (benchmark_files.cpp:375-409). -/
def verifyStep (c : Cfg) (st : St) : St :=
  if c.doVerify then
    let p := checkSectors c st.offset st.buf
    let l := p.2 ++ checkWords c st.offset p.1 (c.nfiles * c.stepInt) 0
    { st with buf := p.1, failed := st.failed || !l.isEmpty, log := st.log ++ l }
  else st

/-- One iteration of the main loop (benchmark_files.cpp:278-412). -/
def stepOnce (c : Cfg) (out : Nat → Nat → Option Nat) (st : St) : St :=
  let st' := verifyStep c (readStep c out (writeStep c st))
  { st' with offset := st'.offset + c.step }

/-- The state in front of the main loop (benchmark_files.cpp:230-266). -/
def init (c : Cfg) (offset : Nat) (med : Nat → Nat → Nat) : St :=
  { buf := pat c, med, offset, failed := false, log := [] }

/-- The state after `n` iterations; `out k` is the oracle for iteration `k` (benchmark_files.cpp:278-412). -/
def after (c : Cfg) (out : Nat → Nat → Nat → Option Nat) (offset : Nat) (med : Nat → Nat → Nat) : Nat → St
  | 0 => init c offset med
  | n + 1 => stepOnce c (out n) (after c out offset med n)

/-- The main loop with its condition (benchmark_files.cpp:278) for `length ≠ 0`; none: not finished within the fuel. -/
def mainLoop (c : Cfg) (out : Nat → Nat → Nat → Option Nat) (endpos : Nat) : Nat → Nat → St → Option St
  | 0, _, _ => none
  | fuel + 1, n, st => if st.offset + c.step ≤ endpos then mainLoop c out endpos fuel (n + 1) (stepOnce c (out n) st) else some st

/-- `benchmark_files` for `length ≠ 0`: the result is the state at the end; the tool returns 1 if `failed` (benchmark_files.cpp:460). -/
def benchmark (c : Cfg) (out : Nat → Nat → Nat → Option Nat) (offset length : Nat) (med : Nat → Nat → Nat) : Option St :=
  mainLoop c out (offset + length) (length + 1) 0 (init c offset med)

/-! ### create_files -/

/-- A write of `create_files`: disk, position in its part of the buffer, offset in the file, length, all in bytes (create_files.cpp:187-197). -/
structure CWrite where
  disk : Nat
  pos : Nat
  offset : Nat
  len : Nat
deriving DecidableEq, Repr

/-- The writes of one iteration of the main loop (create_files.cpp:171-197, 260), `bs` is `buffer_size` (256 MiB, 121; a
multiple of 8), two chunks (125). -/
def cwrites (nd bs endpos off : Nat) : List CWrite :=
  (List.range nd).flatMap fun i => (List.range 2).map fun j =>
    { disk := i, pos := j * (bs / 2), offset := off + j * (min bs (endpos - off) / 2), len := min bs (endpos - off) / 2 }

/-- The main loop (create_files.cpp:171-261) for `length ≠ 0`; none: not finished within the fuel. -/
def cloop (nd bs endpos : Nat) : Nat → Nat → Option (List CWrite)
  | 0, _ => none
  | fuel + 1, off =>
    if off < endpos then (cloop nd bs endpos fuel (off + min bs (endpos - off))).map (cwrites nd bs endpos off ++ ·)
    else some []

/-- `create_files` for new files (they are unlinked, 112): all writes.  With `length = 0` the loop is not entered (create_files.cpp:108-261). -/
def create (nd bs length : Nat) : Option (List CWrite) := cloop nd bs length (length + 1) 0

end Foxxll.FileBench
