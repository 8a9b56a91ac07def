import Verif.Spec.StreamFail
/-
Terms for the progress of streams with failing reads.
-/
namespace Foxxll.StreamFail
open Foxxll.Stream (ISt IOp)

variable {α : Type}

/-- `n` steps of the threads, none of which is the beginning of a call of the client; exceptions included. -/
inductive Goes (rev : Bool) (size : Nat) (c : Cfg α) : Nat → ISt α → ISt α → Prop
  | none (s) : Goes rev size c 0 s s
  | more {n s s' s''} (op : IOp) : Goes rev size c n s s' → op ≠ .advance → op ≠ .spurious →
      (step rev size c s' op = .ok s'' ∨ step rev size c s' op = .threw s'') → Goes rev size c (n + 1) s s''

/-- Every block is read early enough: block `k` is among the first `k + bufSize` of the order (what the schedules of the library give, C15). -/
def Early (c : Cfg α) : Prop := ∀ p k, c.seq[p]? = some k → p < k + c.bufSize

end Foxxll.StreamFail
