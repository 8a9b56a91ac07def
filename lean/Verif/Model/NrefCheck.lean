import Verif.Model.Lifetime
/-
The diagnostics of requests: the test of the reference counter around `serve`, and the test of alignment.

/repo/foxxll/io/request.hpp, request.cpp, serving_request.cpp.  Built on the model of the lifetime of requests.
-/
namespace Foxxll.NrefCheck
open Foxxll.Life

/-- `check_nref` (request.hpp:127-131) and `check_nref_failed` (request.cpp:56-67), which prints `file_->io_type()`: whether the warning is printed, or the
undefined behaviour.  The text is left out. -/
def checkNref (s : St) (r : Nat) : Res Bool :=
  if (s.reqs r).alive = false then .uaf
  else if (s.reqs r).refs < 2 then
    match (s.reqs r).file with
    | none => .null
    | some f => if s.falive f then .ok true else .fileGone
  else .ok false

/-- The request of which thread `t` calls `check_nref(after)` now: before the transfer (serving_request.cpp:42) and between it and `completed` (serving_request.cpp:60-62). -/
def checks (s : St) (t : Nat) : Option (Bool × Nat) :=
  match s.thr t with
  | .serve r => some (false, r)
  | .comp r .setDone .worker => some (true, r)
  | _ => none

/-- `BlockAlignment` (request.hpp:33). -/
def blockAlignment : Nat := 4096

/-- What `check_alignment` complains about (request.cpp:40-54): the remainders of offset, size and address of the buffer, in this order.  It does
nothing else. -/
def checkAlignment (offset bytes buffer : Nat) : List (Nat × Nat) :=
  (if offset % blockAlignment ≠ 0 then [(0, offset % blockAlignment)] else []) ++
  (if bytes % blockAlignment ≠ 0 then [(1, bytes % blockAlignment)] else []) ++
  (if buffer % blockAlignment ≠ 0 then [(2, buffer % blockAlignment)] else [])

/-- Constructor of `serving_request` (serving_request.cpp:31-37): the test is compiled if `FOXXLL_CHECK_BLOCK_ALIGNING` is defined, and made if the file needs
alignment. -/
def construct (compiled need : Bool) (offset bytes buffer : Nat) : List (Nat × Nat) :=
  if compiled && need then checkAlignment offset bytes buffer else []

end Foxxll.NrefCheck
