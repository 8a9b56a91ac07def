import Verif.Model.Config
/-
Model of the search for the configuration file (/repo/foxxll/mng/config.cpp:42-47, 84-131, 144-179; POSIX branch).

The environment variables are fixed; a file may change between the test for its existence and its being read.
-/
namespace Foxxll.Config

/-- The operating system as `find_config` sees it (config.cpp:89-96): environment variables; what `exist_file` finds (config.cpp:42-47), and the
content that `load_config_file` finds, `none` if the file cannot be opened (config.cpp:147-150). -/
structure Os where
  cfgVar : Option Str
  hostname : Option Str
  home : Option Str
  good : Str → Bool
  content : Str → Option Str

/-- The values of `line` in the loop (config.cpp:152-154) for the given rest of the file: `std::getline` reads up to a newline or the end of the file, and fails
if there is no character left; `cur` are the characters read of the current line. -/
def linesFrom (cur : Str) : Str → List Str
  | [] => if cur = [] then [] else [cur]
  | ch :: rest => if ch = '\n' then cur :: linesFrom [] rest else linesFrom (cur ++ [ch]) rest

/-- The lines of a file (config.cpp:152-154). -/
def lines (s : Str) : List Str := linesFrom [] s

/-- `load_config_file` (config.cpp:144-179) of a path. -/
def loadPath (env : Env) (os : Os) (c : Cfg) (path : Str) : Cfg × Bool := loadFile env c ((os.content path).map lines)

/-- Both tests in one directory (config.cpp:102-110, 115-124); `none`: neither file exists. -/
def inDir (env : Env) (os : Os) (c : Cfg) (basepath : Str) : Option (Cfg × Bool) :=
  match os.hostname with
  | some host =>
    if os.good (basepath ++ '.' :: host) then some (loadPath env os c (basepath ++ '.' :: host))
    else if os.good basepath then some (loadPath env os c basepath)
    else none
  | none => if os.good basepath then some (loadPath env os c basepath) else none

/-- `find_config` behind the test of `STXXLCFG` (config.cpp:92-130). -/
def findDirs (env : Env) (os : Os) (c : Cfg) : Cfg × Bool :=
  match inDir env os c "./.stxxl".toList with
  | some r => r
  | none =>
    match os.home with
    | some home =>
      match inDir env os c (home ++ "/.stxxl".toList) with
      | some r => r
      | none => (loadDefault c, false)
    | none => (loadDefault c, false)

/-- `find_config` (config.cpp:84-131). -/
def findConfigOs (env : Env) (os : Os) (c : Cfg) : Cfg × Bool :=
  match os.cfgVar with
  | some cfg => if os.good cfg then loadPath env os c cfg else findDirs env os c
  | none => findDirs env os c

/-- `check_initialized` (config.hpp:151-154) and `initialize` (config.cpp:66-82). -/
def initOs (env : Env) (os : Os) (c : Cfg) : Cfg × Bool :=
  if c.isInit then (c, false)
  else
    let c1 := { c with firstFlash := 0 }
    let r := if c.disks = [] then findConfigOs env os c1 else (c1, false)
    if r.2 then r else ({ r.1 with maxDev := 0, isInit := true }, false)

end Foxxll.Config
