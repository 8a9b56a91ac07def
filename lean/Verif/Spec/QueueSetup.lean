import Verif.Model.QueueSetup
/-
Vocabulary for queues that could not be created.
-/
namespace Foxxll.QSetup
open Foxxll

/-- The map without null pointers, as in `Model/DiskQueues.lean`. -/
def view (m : Map) : DiskQ.Map := fun i => (find m i).join

/-- No entry is a null pointer. -/
def Sound (m : Map) : Prop := ∀ i, find m i ≠ some none

/-- The file of a call. -/
def Call.file : Call → Option DiskQ.File
  | .op o => some o.file
  | .priority => none

/-- The calls that returned, without those of `set_priority_op`. -/
def returned (lhs : Bool) (s : St) : List (Os × Call) → List DiskQ.Op
  | [] => []
  | (os, c) :: l =>
    match step lhs s os c with
    | .ok s' => (match c with | .op o => [o] | .priority => []) ++ returned lhs s' l
    | .threw s' => returned lhs s' l
    | _ => []

end Foxxll.QSetup
