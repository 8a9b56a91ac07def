import Verif.Model.Files
/-
Model of the disk configuration: `disk_config` and `config` (/repo/foxxll/mng/config.cpp,
config.hpp) and the assignment of device ids in `create_file` (/repo/foxxll/io/create_file.cpp).

Strings are lists of characters (bytes).  `tlx::split` is modelled from its documentation;
`tlx::expand_environment_variables` and `tlx::parse_si_iec_units` (not part of this repository) are
parameters.  Logging is left out.
-/
namespace Foxxll.Config

/-- `std::string` as in config.cpp:336-401. -/
abbrev Str := List Char

/-- How a call ends (exceptions: config.cpp:348-351, 408). -/
inductive Res (α : Type)
  | ok (a : α)
  /-- `std::runtime_error` -/
  | runtimeError
  /-- `std::out_of_range` (thrown by `std::string::substr`) -/
  | outOfRange
  /-- element access behind the end of a vector -/
  | ub

/-- Sequence of statements that may throw (config.cpp:336-545). -/
def Res.bind {α β : Type} : Res α → (α → Res β) → Res β
  | .ok a, f => f a
  | .runtimeError, _ => .runtimeError
  | .outOfRange, _ => .outOfRange
  | .ub, _ => .ub

/-- `v[i]` (used in config.cpp:341, 367, 438). -/
def index (v : List Str) (i : Nat) : Res Str :=
  match v[i]? with
  | some s => .ok s
  | none => .ub

/-- `into->size() + 1 >= limit` in `tlx::split`; `none` is no limit (called in config.cpp:339, 367, 426). -/
def atLimit (limit : Option Nat) (k : Nat) : Bool :=
  match limit with
  | none => false
  | some n => decide (n ≤ k + 1)

/-- Loop of `tlx::split(sep, str, limit)`; `cur` is the field being read, `into` the fields so far (called in config.cpp:339, 367, 420, 426). -/
def splitAux (sep : Char) (limit : Option Nat) : Str → Str → List Str → List Str
  | [], cur, into => into ++ [cur]
  | ch :: rest, cur, into =>
    if ch = sep then
      if atLimit limit into.length then into ++ [cur ++ ch :: rest]
      else splitAux sep limit rest [] (into ++ [cur])
    else splitAux sep limit rest (cur ++ [ch]) into

/-- `tlx::split(sep, str)` and, with `minFields`, `tlx::split(sep, str, min_fields, limit)`: at
most `limit` fields, filled up with empty ones (called in config.cpp:339, 367, 420, 426). -/
def split (sep : Char) (s : Str) (minFields : Nat) (limit : Option Nat) : List Str :=
  let v := splitAux sep limit s [] []
  v ++ List.replicate (minFields - v.length) []

/-- `isspace` (part of `strtoul`, config.cpp:481). -/
def isSpace (ch : Char) : Bool := ch = ' ' || (9 ≤ ch.toNat && ch.toNat ≤ 13)

/-- `isdigit` (part of `strtoul`, config.cpp:481). -/
def isDigit (ch : Char) : Bool := 48 ≤ ch.toNat && ch.toNat ≤ 57

/-- `std::string::c_str()` as seen by a C function: up to the first NUL (config.cpp:481, 500, 511). -/
def cstr (s : Str) : Str := s.takeWhile (fun ch => ch.toNat != 0)

/-- Value of a sequence of decimal digits (part of `strtoul`, config.cpp:481). -/
def digits (s : Str) : Nat := s.foldl (fun a ch => 10 * a + (ch.toNat - 48)) 0

/-- `strtoul(str, &endp, 10)`: the value (64 bit) and the rest of the string from `endp` (config.cpp:481, 500, 511). -/
def strtoul (s : Str) : Nat × Str :=
  let t := s.dropWhile isSpace
  let neg := t.head? = some '-'
  let u := if t.head? = some '-' ∨ t.head? = some '+' then t.drop 1 else t
  let d := u.takeWhile isDigit
  if d = [] then (0, s)
  else
    let v := digits d
    (if 2 ^ 64 ≤ v then 2 ^ 64 - 1 else if neg then (2 ^ 64 - v) % 2 ^ 64 else v, u.dropWhile isDigit)

/-- `static_cast<int>` of a 64 bit unsigned value (config.cpp:481, 500, 511). -/
def toInt (v : Nat) : Int :=
  let w : Nat := v % 2 ^ 32
  if w < 2 ^ 31 then (w : Int) else (w : Int) - 2 ^ 32

/-- Conversion of `int` to `unsigned int` (config.cpp:511). -/
def toUnsigned (i : Int) : Nat := (i % 2 ^ 32).toNat

/-- `operator <<` for integers (config.cpp:582). -/
def showNat (n : Nat) : Str := Files.decimal (n + 1) n

/-- `operator <<` for `int` (config.cpp:578, 594). -/
def showInt (i : Int) : Str := if i < 0 then '-' :: showNat i.natAbs else showNat i.natAbs

/-- config.hpp:81 -/
inductive Direct
  | off
  | try_
  | on
  deriving DecidableEq

/-- `disk_config` (config.hpp:35-109). -/
structure Disk where
  path : Str := []
  size : Nat := 0
  ioImpl : Str := []
  autogrow : Bool := true
  deleteOnExit : Bool := false
  direct : Direct := .try_
  flash : Bool := false
  /-- `DEFAULT_QUEUE` (file.hpp:89) -/
  queue : Int := -1
  /-- `DEFAULT_DEVICE_ID` (file.hpp:92) -/
  deviceId : Nat := 2 ^ 32 - 1
  rawDevice : Bool := false
  unlinkOnOpen : Bool := false
  queueLength : Int := 0
  deriving DecidableEq

/-- Integer option (config.cpp:480-487, 499-506, 510-517): the whole text must be consumed. -/
def parseNum (s : Str) : Res Int :=
  let r := strtoul (cstr s)
  if r.2 ≠ [] then .runtimeError else .ok (toInt r.1)

/-- One option of the loop in `parse_fileio` (config.cpp:423-544). -/
def parseOption (c : Disk) (p eq0 eq1 : Str) : Res Disk :=
  if p = [] then .ok c
  else if p = "autogrow".toList ∨ p = "noautogrow".toList ∨ eq0 = "autogrow".toList then
    if p = "autogrow".toList then .ok { c with autogrow := true }
    else if p = "noautogrow".toList then .ok { c with autogrow := false }
    else if eq1 = "off".toList then .ok { c with autogrow := false }
    else if eq1 = "on".toList then .ok { c with autogrow := true }
    else if eq1 = "no".toList then .ok { c with autogrow := false }
    else if eq1 = "yes".toList then .ok { c with autogrow := true }
    else .runtimeError
  else if p = "delete".toList ∨ p = "delete_on_exit".toList then .ok { c with deleteOnExit := true }
  else if p = "direct".toList ∨ p = "nodirect".toList ∨ eq0 = "direct".toList then
    if p = "direct".toList then .ok { c with direct := .on }
    else if p = "nodirect".toList then .ok { c with direct := .off }
    else if eq1 = "off".toList then .ok { c with direct := .off }
    else if eq1 = "try".toList then .ok { c with direct := .try_ }
    else if eq1 = "on".toList then .ok { c with direct := .on }
    else if eq1 = "no".toList then .ok { c with direct := .off }
    else if eq1 = "yes".toList then .ok { c with direct := .on }
    else .runtimeError
  else if eq0 = "queue".toList then
    if c.ioImpl = "linuxaio".toList then .runtimeError
    else (parseNum eq1).bind fun v => .ok { c with queue := v }
  else if eq0 = "queue_length".toList then
    if c.ioImpl ≠ "linuxaio".toList then .runtimeError
    else (parseNum eq1).bind fun v => .ok { c with queueLength := v }
  else if eq0 = "device_id".toList ∨ eq0 = "devid".toList then
    (parseNum eq1).bind fun v => .ok { c with deviceId := toUnsigned v }
  else if p = "raw_device".toList then
    if c.ioImpl ≠ "syscall".toList then .runtimeError else .ok { c with rawDevice := true }
  else if p = "unlink".toList ∨ p = "unlink_on_open".toList then
    if ¬ (c.ioImpl = "syscall".toList ∨ c.ioImpl = "linuxaio".toList ∨ c.ioImpl = "mmap".toList) then .runtimeError
    else .ok { c with unlinkOnOpen := true }
  else .runtimeError

/-- With its split at the equal sign (config.cpp:426-427); `eq[1]` is also evaluated where it is not used. -/
def parseParam (c : Disk) (p : Str) : Res Disk :=
  let eq := split '=' p 2 (some 2)
  (index eq 0).bind fun eq0 => (index eq 1).bind fun eq1 => parseOption c p eq0 eq1

/-- The loop (config.cpp:423-544). -/
def parseParams : Disk → List Str → Res Disk
  | c, [] => .ok c
  | c, p :: ps => (parseParam c p).bind fun c' => parseParams c' ps

/-- `parse_fileio` (config.cpp:403-545): `find_first_not_of` gives `npos` for a blank text, then `substr`
throws `std::out_of_range`. -/
def parseFileio (c : Disk) : Res Disk :=
  let io := c.ioImpl.dropWhile (· = ' ')
  if io = [] then .outOfRange
  else
    match io.dropWhile (· ≠ ' ') with
    | [] => .ok { c with ioImpl := io }
    | _ :: paramstr => parseParams { c with ioImpl := io.takeWhile (· ≠ ' ') } (split ' ' paramstr 0 none)

/-- Constructor `disk_config(path, size, fileio)` (config.cpp:303-319). -/
def mkDisk (path : Str) (size : Nat) (fileio : Str) : Res Disk :=
  parseFileio { path := path, size := size, ioImpl := fileio }

/-- config.cpp:371-383: `$$` is searched and replaced.  `std::string::replace(pos, 3, ..)` takes out as
many characters as there are, at most 3. -/
def replacePid (pid : Str) : Str → Str
  | [] => []
  | ch :: rest =>
    if ch = '$' ∧ rest.head? = some '$' then pid ++ (ch :: rest).drop 3
    else ch :: replacePid pid rest

/-- What comes from outside: the process id and the two functions of tlx (config.cpp:370, 377, 386). -/
structure Env where
  pid : Nat
  expand : Str → Str
  units : Str → Option Nat

/-- config.cpp:341-352. -/
def parseToken (c : Disk) (tok : Str) : Res Disk :=
  if tok = "disk".toList then .ok { c with flash := false }
  else if tok = "flash".toList then .ok { c with flash := true }
  else .runtimeError

/-- `parse_line` (config.cpp:336-401) on the object `c`. -/
def parseLine (env : Env) (c : Disk) (line : Str) : Res Disk :=
  let eqf := split '=' line 2 (some 2)
  (index eqf 0).bind fun tok =>
  (parseToken c tok).bind fun c1 =>
  let c2 := { c1 with autogrow := true, deleteOnExit := false, direct := .try_, queue := -1, deviceId := 2 ^ 32 - 1, unlinkOnOpen := false }
  (index eqf 1).bind fun rest =>
  let cm := split ',' rest 3 (some 3)
  (index cm 0).bind fun f0 => (index cm 1).bind fun f1 => (index cm 2).bind fun f2 =>
  let c3 := { c2 with path := replacePid (showNat env.pid) (env.expand f0) }
  match env.units f1 with
  | none => .runtimeError
  | some size =>
    let c4 := if size = 0 then { c3 with size := size, autogrow := true, deleteOnExit := true } else { c3 with size := size }
    parseFileio { c4 with ioImpl := f2 }

/-- config.cpp:559-571. -/
def directString : Direct → Str
  | .off => " direct=off".toList
  | .try_ => []
  | .on => " direct=on".toList

/-- `fileio_string` (config.cpp:547-598). -/
def fileioString (c : Disk) : Str :=
  c.ioImpl
  ++ (if c.autogrow then [] else " autogrow=no".toList)
  ++ (if c.deleteOnExit then " delete_on_exit".toList else [])
  ++ directString c.direct
  ++ (if c.flash then " flash".toList else [])
  ++ (if c.queue ≠ -1 ∧ c.queue ≠ -2 then " queue=".toList ++ showInt c.queue else [])
  ++ (if c.deviceId ≠ 2 ^ 32 - 1 then " devid=".toList ++ showNat c.deviceId else [])
  ++ (if c.rawDevice then " raw_device".toList else [])
  ++ (if c.unlinkOnOpen then " unlink_on_open".toList else [])
  ++ (if c.queueLength ≠ 0 then " queue_length=".toList ++ showInt c.queueLength else [])

/-! ### `config` -/

/-- Members of `config` (config.hpp:116-175). -/
structure Cfg where
  disks : List Disk
  firstFlash : Nat
  isInit : Bool
  maxDev : Nat

/-- Constructor (config.cpp:49-51): `first_flash` and `max_device_id_` are not set; `g`, `m` are
the values found in memory. -/
def construct (g m : Nat) : Cfg := { disks := [], firstFlash := g, isInit := false, maxDev := m }

/-- `add_disk` (config.cpp:181-187). -/
def addDisk (c : Cfg) (d : Disk) : Cfg := { c with disks := c.disks ++ [d], firstFlash := (c.firstFlash + 1) % 2 ^ 32 }

/-- `load_default_config` (config.cpp:133-142). -/
def loadDefault (c : Cfg) : Cfg :=
  addDisk c { path := "/var/tmp/foxxll".toList, size := 1000 * 1024 * 1024, ioImpl := "syscall".toList, deleteOnExit := true, autogrow := true }

/-- Loop of `load_config_file` (config.cpp:154-166): new regular disks are appended at once, flash disks are
collected in `fl`.  An exception leaves the disks appended so far. -/
def loadLines (env : Env) : List Str → List Disk → List Disk → List Disk × Option (List Disk)
  | [], disks, fl => (disks, some fl)
  | line :: rest, disks, fl =>
    if line = [] ∨ line.head? = some '#' then loadLines env rest disks fl
    else
      match parseLine env {} line with
      | .ok d => if d.flash then loadLines env rest disks (fl ++ [d]) else loadLines env rest (disks ++ [d]) fl
      | _ => (disks, none)

/-- `load_config_file` (config.cpp:144-179): `file` are the lines, `none` if it cannot be opened.  The flag
says whether an exception was thrown. -/
def loadFile (env : Env) (c : Cfg) : Option (List Str) → Cfg × Bool
  | none => (loadDefault c, false)
  | some lines =>
    match loadLines env lines c.disks [] with
    | (disks, none) => ({ c with disks := disks }, true)
    | (disks, some fl) =>
      ({ c with firstFlash := disks.length % 2 ^ 32, disks := disks ++ fl }, (disks ++ fl).isEmpty)

/-- `find_config` (config.cpp:84-131): `found` is the first existing file of those searched for, if any. -/
def findConfig (env : Env) (c : Cfg) (found : Option (Option (List Str))) : Cfg × Bool :=
  match found with
  | none => (loadDefault c, false)
  | some file => loadFile env c file

/-- `check_initialized` (config.hpp:151-154) and `initialize` (config.cpp:66-82). -/
def init (env : Env) (c : Cfg) (found : Option (Option (List Str))) : Cfg × Bool :=
  if c.isInit then (c, false)
  else
    let c1 := { c with firstFlash := 0 }
    let r := if c.disks = [] then findConfig env c1 found else (c1, false)
    if r.2 then r else ({ r.1 with maxDev := 0, isInit := true }, false)

/-- `regular_disk_range` (config.cpp:205-209), without the assertion. -/
def regularRange (c : Cfg) : Nat × Nat := (0, c.firstFlash)

/-- `flash_range` (config.cpp:211-217), without the assertion. -/
def flashRange (c : Cfg) : Nat × Nat := (c.firstFlash, c.disks.length % 2 ^ 32)

/-- `next_device_id` (config.cpp:194-197). -/
def nextDeviceId (c : Cfg) : Nat × Cfg := (c.maxDev, { c with maxDev := (c.maxDev + 1) % 2 ^ 32 })

/-- `update_max_device_id` (config.cpp:199-203). -/
def updateMaxDeviceId (c : Cfg) (id : Nat) : Cfg :=
  if c.maxDev < (id + 1) % 2 ^ 32 then { c with maxDev := (id + 1) % 2 ^ 32 } else c

/-- Assignment of the device id in `create_file` (create_file.cpp:61-70): the id used, and the new
state. -/
def assignId (c : Cfg) (wanted : Nat) : Nat × Cfg :=
  if wanted = 2 ^ 32 - 1 then nextDeviceId c else (wanted, updateMaxDeviceId c wanted)

end Foxxll.Config
