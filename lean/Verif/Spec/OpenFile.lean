import Verif.Model.OpenFile
/-
Vocabulary for the properties of opening files, in terms of the system calls that were made.
-/
namespace Foxxll.Open
open Foxxll.Config (Str Disk Direct Cfg)

/-- What a call does to the number of open descriptors. -/
def Ev.delta : Ev → Int
  | .open _ _ true => 1
  | .close true => -1
  | _ => 0

/-- Number of descriptors opened and not closed. -/
def live : List Ev → Int
  | [] => 0
  | e :: l => e.delta + live l

/-- `fstat` or `F_SETLK` failed. -/
def Ev.initFailed : Ev → Bool
  | .fstat false => true
  | .setlk _ false => true
  | _ => false

def Ev.isSetlk : Ev → Bool
  | .setlk _ _ => true
  | _ => false

/-- The call takes away a name or the contents of a file. -/
def Ev.destructive : Ev → Bool
  | .unlink _ _ => true
  | .remove _ _ => true
  | .ftruncate _ => true
  | _ => false

/-- The call removes the name `p`. -/
def Ev.removes (p : Str) : Ev → Bool
  | .unlink q ok => decide (q = p) && ok
  | .remove q ok => decide (q = p) && ok
  | _ => false

def Ev.isClose : Ev → Bool
  | .close _ => true
  | _ => false

/-- The call changes the contents, the size or the name of a file. -/
def Ev.touches : Ev → Bool
  | .open _ f ok => f.trunc && ok
  | .write _ => true
  | e => e.destructive

/-- A file per block. -/
def Kind.perBlock (k : Kind) : Bool := k = .fpbSyscall || k = .fpbMmap

/-- One descriptor if the last call is a failed `fstat` or `F_SETLK`. -/
def leak (l : List Ev) : Int := if (l.getLast?.map Ev.initFailed) = some true then 1 else 0

/-- Number of files with a descriptor. -/
def files : List FileObj → Int
  | [] => 0
  | o :: l => (if o.ufs.isSome then 1 else 0) + files l

end Foxxll.Open
