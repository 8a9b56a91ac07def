import Verif.Model.FindConfig
/-
The documented search for the configuration file, and what a file means.
-/
namespace Foxxll.Config

/-- The files searched for, in this order. -/
def candidates (os : Os) : List Str :=
  os.cfgVar.toList ++ (os.hostname.toList.map fun h => "./.stxxl.".toList ++ h) ++ ["./.stxxl".toList] ++
    (os.home.toList.flatMap fun d => (os.hostname.toList.map fun h => d ++ "/.stxxl.".toList ++ h) ++ [d ++ "/.stxxl".toList])

/-- Files do not come and go during the search. -/
def Stable (os : Os) : Prop := ∀ p, os.good p = (os.content p).isSome

/-- Lines that are neither empty nor comments. -/
def entries (ls : List Str) : List Str := ls.filter fun l => !(l.isEmpty || l.head? == some '#')

/-- `ds` are the disks that the lines `ls` stand for. -/
def Means (env : Env) (ls : List Str) (ds : List Disk) : Prop :=
  (entries ls).map (parseLine env {}) = ds.map .ok

/-- A line that is not accepted. -/
def Faulty (env : Env) (ls : List Str) : Prop := ∃ l ∈ entries ls, ∀ d, parseLine env {} l ≠ .ok d

end Foxxll.Config
