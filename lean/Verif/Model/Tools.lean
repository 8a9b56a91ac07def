/-
Model of the main programs of the tools: memory and exit codes when requests fail
(/repo/tools/benchmark_disks.cpp, /repo/tools/benchmark_disks_random.cpp, /repo/tools/benchmark_files.cpp,
/repo/tools/create_files.cpp), the choice of the subtool (/repo/tools/foxxll_tool.cpp) and the version numbers
(/repo/foxxll/version.hpp, /repo/foxxll/common/version.cpp).

Simplifications: what is transferred is in `DiskBench` and `FileBench`; here a batch is the number of its requests.  The memory of the
buffers is freed in one step (benchmark_disks.cpp:261-262 frees block by block).  Messages are left out.
-/
namespace Foxxll.Tools

/-! ### Buffers and requests -/

/-- What distinguishes the tools here: `catches`: the loop is in a `try` block whose handler prints the message and goes on behind the loop
(benchmark_disks.cpp:118-235, benchmark_disks_random.cpp:85-217, benchmark_files.cpp:277-417; there is none in create_files.cpp:171-261);
`buf j`: the buffer of request `j` of a batch: one for each (benchmark_disks.cpp:158, 180-182; benchmark_files.cpp:298-307, 338-346;
create_files.cpp:187-196, 215-223), or the same for all (benchmark_disks_random.cpp:75, 122, 148, 175). -/
structure Tool where
  catches : Bool
  buf : Nat → Nat

/-- Where the tool is (lines of benchmark_disks_random.cpp): submitting request `j` of a batch (147-148), waiting for request `k` of the
batch in `wait_all` (149; request_operations.hpp:33-37), in the handler (214-217), behind `delete buffer` (220), or ended by an exception
that nobody catches. -/
inductive Pc
  | submit (j : Nat)
  | wait (k : Nat)
  | thrown
  | freed
  | terminated
deriving Repr, DecidableEq

/-- State: position, number of requests of the current and of the later batches (benchmark_disks_random.cpp:144-152), requests of the
current batch in the order of submission (`reqs`), those not yet served with their buffers, those that ended with an error, the number of
requests submitted, and whether a request was served whose buffer had been freed. -/
structure St where
  pc : Pc
  batches : List Nat
  cur : List Nat
  flight : List (Nat × Nat)
  failed : List Nat
  next : Nat
  touched : Bool

/-- The start: buffers allocated, no requests (benchmark_disks_random.cpp:75-85). -/
def init (l : List Nat) : St :=
  { pc := .submit 0, batches := l, cur := [], flight := [], failed := [], next := 0, touched := false }

/-- Actions: the tool goes on (`client true`: the next call throws: submission or the allocation of blocks before it,
benchmark_disks.cpp:142-144), or a worker thread ends the service of request `i`, with an error or not. -/
inductive Act
  | client (throws : Bool)
  | serve (i : Nat) (err : Bool)
deriving Repr, DecidableEq

/-- A step of the tool.  With batches left: submit the requests one by one, then wait for them in order; `wait` throws the error of the
request (benchmark_disks.cpp:157-160; request_operations.hpp:33-37; request_with_state.cpp:34-44); with none left or from the handler:
free the buffers (benchmark_disks.cpp:259-262; benchmark_disks_random.cpp:219-220; benchmark_files.cpp:458). -/
def client (t : Tool) (throws : Bool) (s : St) : Option St :=
  match s.pc with
  | .submit j =>
    if throws then some { s with pc := .thrown }
    else match s.batches with
      | [] => some { s with pc := .freed }
      | n :: _ =>
        if j < n then
          some { s with pc := .submit (j + 1), cur := s.cur ++ [s.next], flight := s.flight ++ [(s.next, t.buf j)], next := s.next + 1 }
        else some { s with pc := .wait 0 }
  | .wait k =>
    match s.cur[k]? with
    | none => some { s with pc := .submit 0, batches := s.batches.tail, cur := [] }
    | some i =>
      if s.flight.any (·.1 == i) then none
      else if s.failed.contains i then some { s with pc := .thrown }
      else some { s with pc := .wait (k + 1) }
  | .thrown => some { s with pc := if t.catches then .freed else .terminated }
  | .freed => none
  | .terminated => none

/-- A step of the program; none: not possible now.  After the end of the process nothing is served. -/
def step (t : Tool) (s : St) : Act → Option St
  | .client th => client t th s
  | .serve i err =>
    if s.pc = .terminated then none
    else if s.flight.any (·.1 == i) then
      some { s with flight := s.flight.filter (fun p => p.1 != i),
                    failed := if err then s.failed ++ [i] else s.failed,
                    touched := s.touched || decide (s.pc = .freed) }
    else none

/-- States reached from the start by the given actions. -/
inductive Run (t : Tool) (l : List Nat) : List Act → St → Prop
  | start : Run t l [] (init l)
  | step {as : List Act} {s s' : St} {a : Act} : Run t l as s → step t s a = some s' → Run t l (as ++ [a]) s'

/-- `benchmark_disks`, and `benchmark_files` with the parts of its buffer (benchmark_disks.cpp:94-110; benchmark_files.cpp:236, 303). -/
def disksTool : Tool := { catches := true, buf := id }

/-- `benchmark_disks_random` (benchmark_disks_random.cpp:75, 122, 148, 175). -/
def randomTool : Tool := { catches := true, buf := fun _ => 0 }

/-- `create_files` (create_files.cpp:131, 187-203, 271). -/
def createTool : Tool := { catches := false, buf := id }

/-! ### Exit codes -/

/-- How a process ends: value returned by `main`, or `std::terminate`. -/
inductive Exit
  | code (c : Int)
  | terminated
deriving Repr, DecidableEq

/-- Names of allocation strategies (benchmark_disks.cpp:327-342, benchmark_disks_random.cpp:277-284). -/
def strategies : List String := ["random_cyclic", "simple_random", "fully_random", "striping"]

/-- `benchmark_disks` and `benchmark_disks_random`: `args`: the `alloc` argument if the command line is accepted; `caught`: an exception ended
the benchmark (benchmark_disks.cpp:322-352, 264; benchmark_disks_random.cpp:271-293, 224; a block size beyond 128 MiB gives -1, too, 51-55: left out). -/
def disksExit (args : Option String) (_caught : Bool) : Exit :=
  match args with
  | none => .code (-1)
  | some a => if a.length ≠ 0 ∧ a ∉ strategies then .code (-1) else .code 0

/-- `benchmark_files` (benchmark_files.cpp:187-188, 252-266, 414-417, 460): files are opened outside of the `try` block. -/
def filesExit (accepted opened _caught verifyFailed : Bool) : Exit :=
  if !accepted then .code (-1) else if !opened then .terminated else if verifyFailed then .code 1 else .code 0

/-- `create_files` (create_files.cpp:105-106, 273). -/
def createExit (accepted thrown : Bool) : Exit :=
  if !accepted then .code (-1) else if thrown then .terminated else .code 0

/-- The table of subtools (foxxll_tool.cpp:62-86). -/
def subtools : List String := ["info", "create_files", "benchmark_disks", "benchmark_files", "benchmark_disks_random"]

/-- `snprintf` into `progsub`, 256 bytes with the final null (foxxll_tool.cpp:121, 133). -/
def progsub (arg0 arg1 : List Char) : List Char := (arg0 ++ [' '] ++ arg1).take 255

/-- What `main` does: call a subtool with its arguments, or show the usage and return 0 (foxxll_tool.cpp:119-142). -/
inductive Choice
  | call (tool : String) (argv : List (List Char))
  | usage
deriving Repr, DecidableEq

/-- `main` (foxxll_tool.cpp:119-142), `argv` including the name of the program; a mismatch of versions is only printed (123-124). -/
def choose (argv : List (List Char)) : Choice :=
  match argv with
  | a0 :: a1 :: rest =>
    match subtools.find? (fun n => n.toList == a1) with
    | some n => .call n (progsub a0 a1 :: rest)
    | none => .usage
  | _ => .usage

/-- Exit code of `main` for the exit of the subtool (foxxll_tool.cpp:135, 141; `main_usage` returns 0, 116). -/
def mainExit (run : String → List (List Char) → Exit) (argv : List (List Char)) : Exit :=
  match choose argv with
  | .call n args => run n args
  | .usage => .code 0

/-! ### Versions -/

/-- Version numbers (CMakeLists.txt:38-40; version.cpp:20-33). -/
structure Version where
  major : Nat
  minor : Nat
  patch : Nat
deriving Repr, DecidableEq

/-- `FOXXLL_VERSION_INTEGER`, `version_integer` (version.hpp:28, version.cpp:35-38); no overflow of `int` here. -/
def Version.integer (v : Version) : Nat := v.major * 10000 + v.minor * 100 + v.patch

/-- `check_library_version` (version.hpp:72-81). -/
def check (lib hdr : Version) : Nat :=
  if lib.major ≠ hdr.major then 1 else if lib.minor ≠ hdr.minor then 2 else if lib.patch ≠ hdr.patch then 3 else 0

/-- `print_library_version_mismatch` (version.hpp:84-94): ends the program (`tlx_die`) or not. -/
def dies (lib hdr : Version) : Bool := check lib hdr != 0

end Foxxll.Tools
