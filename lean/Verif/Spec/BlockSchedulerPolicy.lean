import Verif.Spec.BlockScheduler

/-
Specification of the policies of the block scheduler: which block is evicted, which identifier is given out.
-/
namespace Foxxll.Swap

variable {D : Type}

/-- Histories of online_lru, with the calls made, the last one first. -/
inductive LruHist (E : Env D) (max : Nat) : St D → List (Op D) → Prop
  | start (memory size : Nat) (mem disk : Nat → D) (h : max = maxBlocks memory size) : LruHist E max (init memory size mem disk) []
  | step {s l s' r} (op : Op D) (h : LruHist E max s l) (hr : ∀ m q, op ≠ .retag m q) (ha : ∀ id e, op = .init id (some e) → e ∈ s.held)
      (hs : Swap.step E s op = some (r, s')) : LruHist E max s' (op :: l)

/-- Whether a call is a release of block `id`. -/
def isRelease (id : Nat) : Op D → Bool
  | .release i _ _ => i == id
  | _ => false

/-- The number of calls since block `id` was last released. -/
def age (id : Nat) : List (Op D) → Nat
  | [] => 0
  | op :: l => if isRelease id op then 0 else age id l + 1

/-- The identifiers the client has: allocated and not freed. -/
def Held (used : List Nat) : Op D → Res D → List Nat
  | .alloc, .id n => n :: used
  | .free id, _ => used.filter (fun x => x != id)
  | _, _ => used

/-- Histories of a client that uses only identifiers it has; `used` are these. -/
inductive IdHist (E : Env D) : St D → List Nat → Prop
  | start (memory size : Nat) (mem disk : Nat → D) : IdHist E (init memory size mem disk) []
  | step {s used s' r} (op : Op D) (h : IdHist E s used) (hu : ∀ id, opId op = some id → id ∈ used) (ha : ∀ id e, op = .init id (some e) → e ∈ s.held)
      (hs : Swap.step E s op = some (r, s')) : IdHist E s' (Held used op r)

/-- The calls the operations of a recorded sequence stand for. -/
def POp.call (e : Option Nat) (pr : SB → Nat) (id : Nat) : POp → Op D
  | .acquire => .acquire id false
  | .acquireUninit => .acquire id true
  | .release => .release id false pr
  | .releaseDirty => .release id true pr
  | .deinit => .deinit id
  | .init => .init id e
  | .extract => .extract id

end Foxxll.Swap
