import Verif.Proofs.Streams
import Verif.Props.AsyncSchedule
/-
Terms used in the statements of `Verif.Props.Streams`.
-/
set_option linter.unusedSimpArgs false

namespace Foxxll.Stream

variable {α : Type}

/-- Block number `i` of a sequence cut into blocks of `size` elements. -/
def chunk (size : Nat) (xs : List α) (i : Nat) : List α := (xs.drop (i * size)).take size

/-- All elements of the blocks, in the order in which the stream has to deliver them. -/
def expected (rev : Bool) (c : Prefetch.Cfg (List α)) : List α :=
  (List.range c.seqLength).flatMap fun j => if rev then (c.disk j).reverse else c.disk j

end Foxxll.Stream
