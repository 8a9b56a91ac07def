import Verif.Model.Config
/-
Histories of calls on the configuration, and what is expected.
-/
namespace Foxxll.Config

/-- Combinations of options that the parser takes. -/
structure Valid (c : Disk) : Prop where
  impl : c.ioImpl ≠ []
  blank : ' ' ∉ c.ioImpl
  noflash : c.flash = false
  queue : -2 ^ 31 ≤ c.queue ∧ c.queue < 2 ^ 31
  queueAio : c.queue ≠ -1 → c.ioImpl ≠ "linuxaio".toList
  devid : c.deviceId < 2 ^ 32
  raw : c.rawDevice = true → c.ioImpl = "syscall".toList
  unlink : c.unlinkOnOpen = true → c.ioImpl = "syscall".toList ∨ c.ioImpl = "linuxaio".toList ∨ c.ioImpl = "mmap".toList
  len : -2 ^ 31 ≤ c.queueLength ∧ c.queueLength < 2 ^ 31
  lenAio : c.queueLength ≠ 0 → c.ioImpl = "linuxaio".toList

/-- A call on `config`. -/
inductive Op
  | add (d : Disk)
  | load (file : Option (List Str))
  | init (found : Option (Option (List Str)))

/-- Its effect; the flag says whether an exception was thrown. -/
def Op.apply (env : Env) (c : Cfg) : Op → Cfg × Bool
  | .add d => (addDisk c d, false)
  | .load file => loadFile env c file
  | .init found => Config.init env c found

/-- Calls one after the other. -/
def run (env : Env) (c : Cfg) : List Op → Cfg
  | [] => c
  | op :: ops => run env (op.apply env c).1 ops

/-- The ranges divide the disks: each disk is in exactly the range it belongs to. -/
def Partition (c : Cfg) : Prop :=
  (regularRange c).1 = 0 ∧ (regularRange c).2 = (flashRange c).1 ∧ (flashRange c).1 ≤ (flashRange c).2 ∧ (flashRange c).2 = c.disks.length ∧
  ∀ i d, c.disks[i]? = some d → ((regularRange c).1 ≤ i ∧ i < (regularRange c).2 ↔ d.flash = false) ∧
    ((flashRange c).1 ≤ i ∧ i < (flashRange c).2 ↔ d.flash = true)

/-- Histories that keep to an order: initialise first, and add or load further disks only while
there is no flash disk; no exception. -/
inductive Orderly (env : Env) : Cfg → Prop
  | start {g m : Nat} {c : Cfg} (found : Option (Option (List Str))) : Config.init env (construct g m) found = (c, false) → Orderly env c
  | add {c : Cfg} (d : Disk) : Orderly env c → (∀ x ∈ c.disks, x.flash = false) → d.flash = false → Orderly env (addDisk c d)
  | load {c c' : Cfg} (file : Option (List Str)) : Orderly env c → (∀ x ∈ c.disks, x.flash = false) → loadFile env c file = (c', false) → Orderly env c'
  | init {c : Cfg} (found : Option (Option (List Str))) : Orderly env c → Orderly env (Config.init env c found).1

/-- Files are created after the initialisation; the ids used so far. -/
inductive Ids (env : Env) : Cfg → List Nat → Prop
  | start {c0 c : Cfg} (found : Option (Option (List Str))) : c0.isInit = false → Config.init env c0 found = (c, false) → Ids env c []
  | create {c : Cfg} {used : List Nat} (wanted : Nat) : Ids env c used → wanted < 2 ^ 32 → Ids env (assignId c wanted).2 ((assignId c wanted).1 :: used)

end Foxxll.Config
