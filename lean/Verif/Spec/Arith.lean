import Verif.Model.Arith
/-
Terms used in the statements of `Verif.Props.Arith`.
-/

namespace Foxxll.Arith

/-- What the user of the allocator relies on. -/
structure GoodChunk (A size metaSize : Nat) (c : Chunk) : Prop where
  /-- the data behind the meta info is aligned -/
  aligned : A ∣ c.result + metaSize
  /-- there is room for the hidden pointer inside the heap block, in front of the user range -/
  slot : c.buffer + ptrSize ≤ c.result
  /-- the user range lies inside the heap block that was kept -/
  inside : c.result + metaSize + size ≤ c.buffer + c.len

end Foxxll.Arith
