import Verif.Proofs.AlignedHeap
import Verif.Proofs.AlignedHeapAux
/-
Property C127: blocks of aligned memory stay apart, keep their contents, and are given back.
-/
namespace Foxxll.AlignedHeap
open Foxxll.Arith (Mem ptrSize)

/-- **C127 is false** (full statement: whatever sizes are asked for, a call of `aligned_alloc` ends with `bad_alloc` or with a block that is aligned,
lies in an allocated buffer, and overlaps no other block).  When the sizes add up to 2^64 or more, `alloc_size` wraps around: a
small buffer is allocated, and the call returns a block that leaves it. -/
theorem C127_false : ∃ A size metaSize l ptr buf h, size < 2 ^ 64 ∧ metaSize < 2 ^ 64 ∧ Contract A size metaSize l {} ∧
    alignedAlloc A size metaSize l {} = some (.ok ptr buf, h) ∧ h.live = [(buf, 4104)] ∧ buf + 4104 < ptr + metaSize + size := by
  have h1 : (attempt 4096 (2 ^ 64 - 8) 8 (ans 4080 0) {}).1 = .ok 8184 4080 := by decide +kernel
  have h2 : (attempt 4096 (2 ^ 64 - 8) 8 (ans 4080 0) {}).2.live = [(4080, 4104)] := by decide +kernel
  refine ⟨4096, 2 ^ 64 - 8, 8, [ans 4080 0], 8184, 4080, (attempt 4096 (2 ^ 64 - 8) 8 (ans 4080 0) {}).2, by decide, by decide,
    ⟨Or.inr ⟨by decide, by decide, fun p hp => by cases hp⟩, fun h' e => by rw [e] at h1; cases h1⟩, ?_, h2, by decide⟩
  rw [alignedAlloc]
  generalize attempt 4096 (2 ^ 64 - 8) 8 (ans 4080 0) {} = x at *
  obtain ⟨r, h⟩ := x
  simp only at h1
  subst h1
  rfl

/-- **C127 is false** also for `new_alloc`: `allocate(max_size())` for blocks of 4096 bytes asks `malloc` for 8 bytes and then stores a pointer
outside of them. -/
theorem C127_new_alloc_false : ∃ l h, Contract 4096 (newArgs 4096 (allocateBytes 4096 (maxSize 4096))).1
      (newArgs 4096 (allocateBytes 4096 (maxSize 4096))).2 l {} ∧
    alignedAlloc 4096 (newArgs 4096 (allocateBytes 4096 (maxSize 4096))).1 (newArgs 4096 (allocateBytes 4096 (maxSize 4096))).2 l {} =
      some (.ub, h) ∧ h.live = [(4088, 8)] := by
  have e : newArgs 4096 (allocateBytes 4096 (maxSize 4096)) = (2 ^ 64 - 4096, 0) := by decide +kernel
  rw [e]
  have h1 : (attempt 4096 (2 ^ 64 - 4096) 0 (ans 4088 0) {}).1 = .ub := by decide +kernel
  have h2 : (attempt 4096 (2 ^ 64 - 4096) 0 (ans 4088 0) {}).2.live = [(4088, 8)] := by decide +kernel
  refine ⟨[ans 4088 0], (attempt 4096 (2 ^ 64 - 4096) 0 (ans 4088 0) {}).2,
    ⟨Or.inr ⟨by decide, by decide, fun p hp => by cases hp⟩, fun h' e => by rw [e] at h1; cases h1⟩, ?_, h2⟩
  rw [alignedAlloc]
  generalize attempt 4096 (2 ^ 64 - 4096) 0 (ans 4088 0) {} = x at *
  obtain ⟨r, h⟩ := x
  simp only at h1
  subst h1
  rfl

/-- A program that allocates a block while `realloc` fails once, and deallocates it. -/
def leakSt : Option St := run {} [.alloc 16 8 0 [ans 100 0, ans 200 0], .dealloc 224 (fun _ => 0)]

/-- **C127 is false** (full statement: when all blocks have been deallocated, nothing is left allocated).  When `realloc` cannot make the
buffer smaller and returns null, `aligned_alloc` forgets the buffer and allocates another one. -/
theorem C127_leak_false : ∃ s, Life false s ∧ s.blocks = [] ∧ s.h.live = [(100, 32)] := by
  have key : ∀ (s : St) (op : Op), Life false s → Allowed s op → ∃ s', step s op = some s' ∧ Life false s' := by
    intro s op hl ha
    obtain ⟨s', hg⟩ := good_step (life_inv hl).1 ha
    exact ⟨s', hg.step, .fail hl ha hg.step⟩
  have hl0 : Life false {} := .fail (good := true) (op := .dealloc 0 fun _ => 0) .start (Or.inl rfl) rfl
  have a1 : Allowed {} (.alloc 16 8 0 [ans 100 0, ans 200 0]) := by
    refine ⟨by decide, by decide, Or.inr ⟨by decide, by decide, fun p hp => by cases hp⟩, fun h' e => ?_⟩
    have e2 : (attempt 16 8 0 (ans 100 0) {}).2.live = [(100, 32)] := by decide +kernel
    have e3 : (attempt 16 8 0 (ans 100 0) {}).2.may = false := by decide +kernel
    rw [e] at e2 e3
    simp only at e2 e3
    refine ⟨Or.inr ⟨by decide, by decide, ?_⟩, fun h'' e4 => ?_⟩
    · intro p hp
      rw [e2, List.mem_singleton] at hp
      subst hp
      exact ⟨by decide, Or.inr (by decide)⟩
    · unfold attempt at e4
      simp only [e3] at e4
      rw [if_neg (by decide), if_neg (by decide), if_neg (by simp)] at e4
      unfold store at e4
      split at e4 <;> cases e4
  obtain ⟨s1, hs1, l1⟩ := key _ _ hl0 a1
  have b1 : ((step {} (.alloc 16 8 0 [ans 100 0, ans 200 0])).map fun s => s.blocks) = some [⟨224, 16, 8, 0, 200⟩] := by decide +kernel
  rw [hs1] at b1
  simp only [Option.map_some, Option.some.injEq] at b1
  obtain ⟨s2, hs2, l2⟩ := key s1 (.dealloc 224 fun _ => 0) l1 (Or.inr ⟨⟨224, 16, 8, 0, 200⟩, by rw [b1]; simp, rfl⟩)
  have hrun : leakSt = some s2 := by
    unfold leakSt run; rw [hs1]; simp only [Option.bind_some]
    unfold run; rw [hs2]; rfl
  have c1 : (leakSt.map fun s => s.blocks) = some [] := by decide +kernel
  have c2 : (leakSt.map fun s => s.h.live) = some [(100, 32)] := by decide +kernel
  rw [hrun] at c1 c2
  simp only [Option.map_some, Option.some.injEq] at c1 c2
  exact ⟨s2, l2, c1, c2⟩

/-- **C127**, for sizes that do not add up to 2^64 (missing: other sizes, see `C127_false`): in every program that writes only
to its blocks and deallocates only its blocks, and for every behaviour of `malloc` and `realloc`, all blocks are aligned, lie in allocated buffers and do
not overlap; no call is undefined or fails an assertion; and a step changes no byte of a block, except the byte that it
writes. -/
theorem C127_partial {good : Bool} {s : St} (h : Life good s) :
    Sound s ∧ ∀ op, Allowed s op → ∃ s', step s op = some s' ∧
      ∀ b ∈ s.blocks, b ∈ s'.blocks → ∀ a, b.Has a → (∀ v, op ≠ .write a v) → s'.h.mem a = s.h.mem a := by
  refine ⟨(life_inv h).1.sound, ?_⟩
  intro op ha
  obtain ⟨s', hg⟩ := good_step (life_inv h).1 ha
  exact ⟨s', hg.step, hg.keep⟩

/-- **C127**, deallocation: exactly the buffer in which the block lies is given back, whatever has been written to the block. -/
theorem C127_dealloc_partial {good : Bool} {s : St} (h : Life good s) {b : Blk} (hb : b ∈ s.blocks) (junk : Nat → Nat) :
    ∃ p ∈ s.h.live, p.1 ≤ b.ptr ∧ b.ptr + b.metaSize + b.size ≤ p.1 + p.2 ∧ ∃ s', step s (.dealloc b.ptr junk) = some s' ∧
      b ∉ s'.blocks ∧ (∀ c ∈ s.blocks, c ≠ b → c ∈ s'.blocks) ∧ ∀ q, q ∈ s'.h.live ↔ q ∈ s.h.live ∧ q ≠ p := by
  have hi := (life_inv h).1
  have hf := hi.fit b hb
  obtain ⟨len, hl, h1, h2⟩ := hf.buf
  refine ⟨(b.buf, len), hl, by simp only; omega, h2, ?_⟩
  have h0 : b.ptr ≠ 0 := by unfold ptrSize at h1; omega
  have hcov : covers s.h.live (b.ptr - ptrSize) ptrSize = true :=
    covers_of hl (by simp only; omega) (by simp only; unfold ptrSize at *; omega)
  have hany : s.h.live.any (fun p => p.1 == b.buf) = true := by
    rw [List.any_eq_true]; exact ⟨_, hl, by simp⟩
  refine ⟨_, by simp only [step, alignedDealloc, h0, if_false, hcov, if_true, hf.stored, hany]; rfl, ?_, ?_, ?_⟩
  · simp
  · intro c hc hne
    refine List.mem_filter.2 ⟨hc, ?_⟩
    simp only [bne_iff_ne, ne_eq]
    exact fun e => hne (ptr_inj hi hc hb e)
  · intro q
    rw [List.mem_filter]
    simp only [bne_iff_ne, ne_eq]
    constructor
    · rintro ⟨hq, hne⟩
      exact ⟨hq, fun e => hne (by rw [e])⟩
    · rintro ⟨hq, hne⟩
      exact ⟨hq, fun e => hne (live_eq hi.sep hq hl e)⟩

/-- **C127**, nothing is lost, if `realloc` never fails to make a buffer smaller (missing: see `C127_leak_false`): when the program has
deallocated all blocks, nothing is allocated; and there are never more buffers than blocks. -/
theorem C127_leak_partial {s : St} (h : Life true s) :
    (s.blocks = [] → s.h.live = []) ∧ s.h.live.length = s.blocks.length := by
  obtain ⟨hi, ht⟩ := life_inv h
  have ht := ht rfl
  have hp : (s.h.live.map (·.1)).Perm (s.blocks.map (·.buf)) := by
    have n1 : (s.h.live.map (·.1)).Nodup := by
      rw [List.nodup_iff_pairwise_ne, List.pairwise_map]
      exact hi.sep.imp fun h => h.1
    rw [List.perm_ext_iff_of_nodup n1 hi.bufs]
    intro x
    constructor
    · intro hx
      obtain ⟨p, hp, rfl⟩ := List.mem_map.1 hx
      obtain ⟨b, hb, hbe⟩ := ht p hp
      exact List.mem_map.2 ⟨b, hb, hbe⟩
    · intro hx
      obtain ⟨b, hb, rfl⟩ := List.mem_map.1 hx
      obtain ⟨len, hl, _⟩ := (hi.fit b hb).buf
      exact List.mem_map.2 ⟨_, hl, rfl⟩
  have hlen := hp.length_eq
  rw [List.length_map, List.length_map] at hlen
  refine ⟨fun he => ?_, hlen⟩
  rw [he] at hlen
  exact List.length_eq_zero_iff.1 hlen

/-- **C127**, `new_alloc`: an array of `num` blocks of `raw` bytes, obtained with `allocate(num)`, contains `num` aligned blocks, if the
raw size is a multiple of the alignment and nothing wraps around. -/
theorem C127_new_alloc_partial {good : Bool} {s : St} (h : Life good s) {raw num : Nat} {b : Blk} (hb : b ∈ s.blocks)
    (hsz : (b.size, b.metaSize) = newArgs raw (allocateBytes raw num)) (hw : num * raw < 2 ^ 64) (hA : b.align ∣ raw) (k : Nat) (hk : k < num) :
    b.align ∣ b.ptr + k * raw ∧ ∀ a, b.ptr + k * raw ≤ a → a < b.ptr + k * raw + raw → b.Has a := by
  have hal := (life_inv h).1.sound.aligned b hb
  have e1 : allocateBytes raw num = num * raw := Nat.mod_eq_of_lt hw
  have e2 : num * raw % raw = 0 := Nat.mul_mod_left num raw
  rw [e1] at hsz
  simp only [newArgs, e2, Prod.mk.injEq, Nat.sub_zero] at hsz
  rw [hsz.2, Nat.add_zero] at hal
  refine ⟨Nat.dvd_add hal (Nat.dvd_trans hA (Nat.dvd_mul_left _ _)), ?_⟩
  intro a h1 h2
  have : (k + 1) * raw ≤ num * raw := Nat.mul_le_mul_right _ hk
  rw [Nat.add_mul, Nat.one_mul] at this
  exact ⟨by omega, by rw [hsz.1, hsz.2]; omega⟩

/-- **C127**, array-new: `new typed_block[num]` asks `operator new[]` for `num` blocks and a cookie in front of them that is smaller than a block;
`num` aligned blocks then follow the cookie. -/
theorem C127_new_array_partial {good : Bool} {s : St} (h : Life good s) {raw num cookie : Nat} {b : Blk} (hb : b ∈ s.blocks)
    (hsz : (b.size, b.metaSize) = newArgs raw (num * raw + cookie)) (hc : cookie < raw) (hA : b.align ∣ raw) (k : Nat) (hk : k < num) :
    b.align ∣ b.ptr + cookie + k * raw ∧ (∀ a, b.ptr ≤ a → a < b.ptr + cookie → b.Has a) ∧
      (∀ a, b.ptr + cookie + k * raw ≤ a → a < b.ptr + cookie + k * raw + raw → b.Has a) ∧ b.metaSize + b.size = num * raw + cookie := by
  have hal := (life_inv h).1.sound.aligned b hb
  have e2 : (num * raw + cookie) % raw = cookie := by
    rw [Nat.add_comm, Nat.add_mul_mod_self_right, Nat.mod_eq_of_lt hc]
  simp only [newArgs, e2, Prod.mk.injEq, Nat.add_sub_cancel] at hsz
  rw [hsz.2] at hal
  have : (k + 1) * raw ≤ num * raw := Nat.mul_le_mul_right _ hk
  rw [Nat.add_mul, Nat.one_mul] at this
  refine ⟨Nat.dvd_add hal (Nat.dvd_trans hA (Nat.dvd_mul_left _ _)), ?_, ?_, by omega⟩
  · intro a h1 h2
    exact ⟨by omega, by rw [hsz.1, hsz.2]; omega⟩
  · intro a h1 h2
    exact ⟨by omega, by rw [hsz.1, hsz.2]; omega⟩

/-- Three blocks of 4096 bytes with a cookie of 8 bytes. -/
example : newArgs 4096 (3 * 4096 + 8) = (12288, 8) := by decide

/-- Two blocks (with `realloc` moving the first buffer), a byte written, and the older block deallocated: all steps are allowed. -/
def exOps : List Op := [.alloc 16 8 0 [ans 100 500, ans 200 0], .alloc 32 64 4 [ans 1000 0], .write 225 77, .dealloc 224 fun _ => 1]

example : ∃ s, Life true s ∧ s.blocks = [⟨224, 16, 8, 0, 200⟩] ∧ s.h.live = [(200, 32)] := by
  obtain ⟨a, n⟩ := ex_contract
  obtain ⟨s', hg⟩ := good_step (life_inv .start).1 a
  have hs := hg.step
  have b1 : ((step {} (.alloc 16 8 0 [ans 100 500, ans 200 0])).map fun s => s.blocks) = some [⟨224, 16, 8, 0, 200⟩] := by decide +kernel
  have b2 : ((step {} (.alloc 16 8 0 [ans 100 500, ans 200 0])).map fun s => s.h.live) = some [(200, 32)] := by decide +kernel
  rw [hs] at b1 b2
  simp only [Option.map_some, Option.some.injEq] at b1 b2
  exact ⟨s', .step .start a n hs, b1, b2⟩

example : ((run {} exOps).map fun s => s.blocks) = some [⟨1020, 32, 64, 4, 1000⟩] := by decide +kernel

end Foxxll.AlignedHeap
