import Verif.Model.Config
/-
Model of the query functions of `config` (/repo/foxxll/mng/config.hpp:188-246, config.cpp:205-286) in programs that add, change and ask for disks.

`debug` says whether assertions are compiled in.  The search for a configuration file gives the same result whenever it is made (`found`, see `Model/Config.lean`; changes of
the files are the subject of C129).  `const disk_config& disk(size_t) const` is declared (config.hpp:217) but not defined anywhere, so that a program that calls it cannot be
linked; it is left out.  The functions that a derived class may replace (`virtual`) are those of `config`.
-/
namespace Foxxll.ConfigQuery
open Foxxll.Config

/-- The queries. -/
inductive Query
  | disksNumber
  | regularRange
  | flashRange
  | disk (i : Nat)
  | diskPath (i : Nat)
  | diskSize (i : Nat)
  | diskIoImpl (i : Nat)
  | totalSize
  deriving DecidableEq

/-- The answers. -/
inductive Answer
  | num (n : Nat)
  | range (r : Nat × Nat)
  | text (t : Str)
  | whole (d : Disk)
  deriving DecidableEq

/-- How a query ends; the configuration is the one afterwards. -/
inductive QRes
  | ok (a : Answer) (c : Cfg)
  | threw (c : Cfg)
  | assertFail
  | ub

/-- `check_initialized` (config.hpp:151-154), then `k`. -/
def checked (env : Env) (found : Option (Option (List Str))) (c : Cfg) (k : Cfg → QRes) : QRes :=
  let r := init env c found
  if r.2 then .threw r.1 else k r.1

/-- `assert(is_initialized)` (config.cpp:207, 213, 228, 263, 269, 275), then `k`. -/
def asserted (debug : Bool) (c : Cfg) (k : QRes) : QRes := if debug ∧ ¬ c.isInit then .assertFail else k

/-- `disks_list[disk]` (config.cpp:223, 229, 264, 270): no check. -/
def elem (c : Cfg) (i : Nat) (k : Disk → Answer) : QRes :=
  match c.disks[i]? with
  | some d => .ok (k d) c
  | none => .ub

/-- Loop of `total_size` (config.cpp:277-283). -/
def totalLoop : Nat → List Disk → Nat
  | t, [] => t
  | t, d :: l => totalLoop ((t + d.size) % 2 ^ 64) l

/-- The query functions: `disks_number` (config.hpp:194-198), `regular_disk_range` and `flash_range` (config.cpp:205-217), `disk` (219-224), `disk_path` (226-230),
`disk_size`, `disk_io_impl` and `total_size` (261-286). -/
def query (debug : Bool) (env : Env) (found : Option (Option (List Str))) (c : Cfg) : Query → QRes
  | .disksNumber => checked env found c fun c => .ok (.num c.disks.length) c
  | .regularRange => asserted debug c (.ok (.range (Config.regularRange c)) c)
  | .flashRange => asserted debug c (.ok (.range (Config.flashRange c)) c)
  | .disk i => checked env found c fun c => if debug ∧ c.disks.length ≤ i then .assertFail else elem c i .whole
  | .diskPath i => asserted debug c (elem c i fun d => .text d.path)
  | .diskSize i => asserted debug c (elem c i fun d => .num d.size)
  | .diskIoImpl i => asserted debug c (elem c i fun d => .text d.ioImpl)
  | .totalSize => asserted debug c (.ok (.num (totalLoop 0 c.disks)) c)

/-- What a client does: it adds a disk, asks, or assigns to the reference that `disk(i)` returns (config.hpp:213-214). -/
inductive COp
  | add (d : Disk)
  | ask (q : Query)
  | change (i : Nat) (d : Disk)
  deriving DecidableEq

/-- How a program ends: with the answers, or with an exception, assertion or undefined behaviour. -/
inductive CRes
  | ok (answers : List Answer) (c : Cfg)
  | threw (c : Cfg)
  | assertFail
  | ub

/-- The calls of a program, in order (no code of its own). -/
def runQueries (debug : Bool) (env : Env) (found : Option (Option (List Str))) (c : Cfg) (acc : List Answer) : List COp → CRes
  | [] => .ok acc c
  | .add d :: l => runQueries debug env found (addDisk c d) acc l
  | .ask q :: l =>
    match query debug env found c q with
    | .ok a c' => runQueries debug env found c' (acc ++ [a]) l
    | .threw c' => .threw c'
    | .assertFail => .assertFail
    | .ub => .ub
  | .change i d :: l =>
    match query debug env found c (.disk i) with
    | .ok _ c' => runQueries debug env found { c' with disks := c'.disks.set i d } acc l
    | .threw c' => .threw c'
    | .assertFail => .assertFail
    | .ub => .ub

end Foxxll.ConfigQuery
