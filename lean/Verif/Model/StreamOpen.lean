import Verif.Model.Config
import Verif.Model.AsyncSchedule
import Verif.Model.Streams
/-
Model of the constructors of the input streams together with the configuration: which disks and how many buffers the prefetch schedule is
computed for (/repo/foxxll/mng/buf_istream.hpp, buf_istream_reverse.hpp, async_schedule.hpp, config.hpp).

Simplifications: allocation of `prefetch_seq` and of the buffers succeeds; `ndisks` is far below 2^63.
-/
namespace Foxxll.StreamOpen

variable {α : Type}

/-- A block as the constructor sees it: the device id of the file that holds it (`storage->get_device_id()`, file.hpp:207-210), and its content. -/
structure Block (α : Type) where
  dev : Nat
  data : List α

/-- The argument of `compute_prefetch_schedule` (async_schedule.hpp:67-70): an id for each block; `none` is `file::DEFAULT_DEVICE_ID`
(file.hpp:92, async_schedule.cpp:66). -/
def disksOf (bs : List (Block α)) : List (Option Nat) := bs.map fun b => if b.dev = 2 ^ 32 - 1 then none else some b.dev

/-- What the constructor ends with; all outcomes but the first show the configuration afterwards. -/
inductive Opened (α : Type)
  /-- the initialisation of the configuration throws (config.hpp:151-154) -/
  | throws
  /-- an assertion fails, of the schedule or of the prefetcher -/
  | assertFail (c : Config.Cfg)
  | ub (c : Config.Cfg)
  /-- the constructor waits in `pull_block` for the first block; `pc` are the arguments of the prefetcher -/
  | opened (c : Config.Cfg) (pc : Prefetch.Cfg (List α)) (s : Stream.ISt α)

/-- The constructors of `buf_istream` (buf_istream.hpp:64-89) and `buf_istream_reverse` (buf_istream_reverse.hpp:71-100).  `found` is the file that
`find_config` would load, `busy0` and `choice` are the unspecified choices of the schedule, `blk` the value of `current_blk` before its assignment. -/
def openStream (env : Config.Env) (rev : Bool) (size : Nat) (c : Config.Cfg) (found : Option (Option (List Config.Str))) (bs : List (Block α))
    (nbuffers : Nat) (busy0 : Nat → Bool) (choice : Nat → Nat) (blk : Nat) : Opened α :=
  let bids := Stream.order rev bs
  match Config.init env c found with
  | (_, true) => .throws
  | (c, false) =>
    let m := Stream.readBuffers c.disks.length nbuffers
    match Sched.computeSchedule (disksOf bids) m c.maxDev busy0 choice with
    | none => .assertFail c
    | some seq =>
      let pc : Prefetch.Cfg (List α) :=
        { seqLength := bids.length, seq := seq, bufSize := m, disk := fun j => (bids[j]?.map (·.data)).getD [] }
      match Stream.iInit rev size pc blk with
      | .ok s => .opened c pc s
      | .ub => .ub c
      | _ => .assertFail c

end Foxxll.StreamOpen
