import Verif.Model.DiskQueues
/-
Vocabulary for the properties of the map of queues.
-/
namespace Foxxll.DiskQ

/-- Effect of a call on the requests that should be waiting in queue `i`. -/
def effect (i : Int) (l : List Nat) : Op → List Nat
  | .make _ => l
  | .add f r => if f.queue = i then l ++ [r] else l
  | .cancel f r => if f.queue = i then l.erase r else l

/-- Requests that should be waiting in queue `i` after the calls. -/
def waiting (i : Int) (os : List Op) : List Nat := os.foldl (effect i) []

/-- Files that share a queue have the same type. -/
def Compatible (fs : List File) : Prop := ∀ f ∈ fs, ∀ g ∈ fs, f.queue = g.queue → f.aio = g.aio

/-- Only requests that were submitted are canceled. -/
def Legal : List Op → List Op → Prop
  | _, [] => True
  | before, o :: os =>
    (match o with
     | .cancel f r => Op.add f r ∈ before
     | _ => True) ∧ Legal (before ++ [o]) os

end Foxxll.DiskQ
