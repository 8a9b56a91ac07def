import Verif.Model.StreamFail
/-
Terms for streams with failing reads.
-/
namespace Foxxll.StreamFail
open Foxxll.Stream (ISt)

variable {α : Type}

/-- The arguments are valid, and blocks have `size` elements. -/
structure Ok (size : Nat) (c : Cfg α) : Prop where
  pos : 0 < size
  seq : c.seq.Perm (List.range c.seqLength)
  len : 0 < c.seqLength
  bufs : 0 < c.bufSize
  disk : ∀ k, k < c.seqLength → (c.disk k).length = size
  junk : ∀ k, k < c.seqLength → (c.junk k).length = size

/-- Elements of a block in the order of the stream. -/
def elems (rev : Bool) (l : List α) : List α := if rev then l.reverse else l

/-- The elements of the first `k` blocks on the disk. -/
def real (rev : Bool) (c : Cfg α) (k : Nat) : List α := (List.range k).flatMap fun j => elems rev (c.disk j)

/-- Number of blocks that the stream has left behind. -/
def passed (s : ISt α) : Nat := s.p.returned.length - s.p.held.length

end Foxxll.StreamFail
