/-
Properties C46, C47, C48 and C55, C56: aligned allocation, typed block layout,
integer helpers, hash bijectivity.
-/
import Verif.Model.Arith
import Verif.Proofs.Arith

namespace Foxxll.Arith

/-! ### C46 -/

/-- **C46**: for every alignment, size, meta size and behaviour of `malloc`/`realloc`, an
allocation ends (after at most two activations) with `bad_alloc` – only if `malloc` failed – or
with a chunk that is aligned and contained in the block obtained from `malloc`, and whatever the
user then writes into their range, deallocation frees exactly that block. -/
theorem C46_aligned_alloc (A size metaSize : Nat) (hA : 0 < A) (may : Bool)
    (b1 r1 b2 r2 : Nat) (rest : List (Nat × Nat)) (hb1 : b1 < 2 ^ 64) (hb2 : b2 < 2 ^ 64) :
    (alignedAlloc A size metaSize may ((b1, r1) :: (b2, r2) :: rest) = some .badAlloc ∧ (b1 = 0 ∨ b2 = 0)) ∨
    ∃ c, alignedAlloc A size metaSize may ((b1, r1) :: (b2, r2) :: rest) = some (.done c) ∧
      (c.buffer = b1 ∨ c.buffer = b2) ∧ c.buffer ≠ 0 ∧ GoodChunk A size metaSize c ∧
      ∀ m m' : Mem,
        (∀ a, ¬ (c.result ≤ a ∧ a < c.result + metaSize + size) →
          m' a = storePtr m (c.result - ptrSize) c.buffer a) →
        alignedDealloc m' c.result = some c.buffer := by
  have free : ∀ c : Chunk, GoodChunk A size metaSize c → c.buffer < 2 ^ 64 → ∀ m m' : Mem,
      (∀ a, ¬ (c.result ≤ a ∧ a < c.result + metaSize + size) →
          m' a = storePtr m (c.result - ptrSize) c.buffer a) →
        alignedDealloc m' c.result = some c.buffer := by
    intro c hc hlt m m' hm
    have hs := hc.slot
    unfold ptrSize at hs
    unfold alignedDealloc
    rw [if_neg (by omega)]
    congr 1
    rw [← loadPtr_storePtr m (c.result - ptrSize) c.buffer hlt]
    apply loadPtr_congr
    intro a h1 h2
    exact hm a (by unfold ptrSize at *; omega)
  have bad : ∀ may b r, attempt A size metaSize may b r = .badAlloc → b = 0 := by
    intro may b r h
    unfold attempt at h
    simp only at h
    split at h
    · assumption
    · split at h
      · exact absurd h (by simp)
      · split at h
        · split at h
          · exact absurd h (by simp)
          · split at h <;> exact absurd h (by simp)
        · exact absurd h (by simp)
  cases h1 : attempt A size metaSize may b1 r1 with
  | badAlloc => left; exact ⟨by simp [alignedAlloc, h1], .inl (bad _ _ _ h1)⟩
  | assertFail => exact absurd h1 (attempt_no_assert hA)
  | done c =>
    right
    obtain ⟨g, e, n⟩ := attempt_done hA h1
    exact ⟨c, by simp [alignedAlloc, h1], .inl e, by omega, g, free c g (by omega)⟩
  | retry =>
    cases h2 : attempt A size metaSize false b2 r2 with
    | badAlloc => left; exact ⟨by simp [alignedAlloc, h1, h2], .inr (bad _ _ _ h2)⟩
    | assertFail => exact absurd h2 (attempt_no_assert hA)
    | retry => exact absurd h2 attempt_false
    | done c =>
      right
      obtain ⟨g, e, n⟩ := attempt_done hA h2
      exact ⟨c, by simp [alignedAlloc, h1, h2], .inr e, by omega, g, free c g (by omega)⟩

example : alignedAlloc 4096 8192 8 true [(1000, 77), (1000, 0)] = some (.done ⟨1000, 12304, 4088⟩) := by
  decide

/-- **C46**: `realloc` is called only to make a chunk smaller.  A chunk whose data begin at the
last possible place is kept as it is, whatever `realloc` would do, so `aligned_alloc` does not
start again. -/
theorem C46_realloc_only_shrinks (A size metaSize : Nat) (hA : 0 < A) (may : Bool) (b r : Nat) (hb : 0 < b)
    (h : A ∣ b + ptrSize + metaSize) :
    attempt A size metaSize may b r = .done ⟨b, A + ptrSize + metaSize + size, b + ptrSize + A⟩ := by
  have hm := Nat.mod_eq_zero_of_dvd h
  have hp : placeResult A metaSize b = b + ptrSize + A := by
    unfold placeResult; simp only [hm]; omega
  unfold attempt
  simp only [hp]
  rw [if_neg (by omega), if_neg (by omega), if_neg (by omega)]

example : attempt 4096 100 0 true 8184 5 = .done ⟨8184, 4204, 12288⟩ := by
  have := C46_realloc_only_shrinks 4096 100 0 (by decide) true 8184 5 (by decide) (by decide)
  simpa [ptrSize] using this

/-- **C46**, arrays of blocks: `operator new[]` for `n` blocks with a compiler cookie smaller than
the block size asks `aligned_alloc` for a chunk in which every block is aligned, provided the raw
size is a multiple of the alignment. -/
theorem C46_array_elements_aligned (A raw n cookie : Nat) (hraw : A ∣ raw) (hc : cookie < raw)
    (c : Chunk) (h : GoodChunk A (newArrayArgs raw (cookie + n * raw)).1
      (newArrayArgs raw (cookie + n * raw)).2 c) :
    (newArrayArgs raw (cookie + n * raw)).1 + (newArrayArgs raw (cookie + n * raw)).2 = cookie + n * raw ∧
    ∀ k, k < n → A ∣ c.result + cookie + k * raw ∧
      c.result + cookie + k * raw + raw ≤ c.buffer + c.len := by
  refine ⟨Nat.sub_add_cancel (Nat.mod_le _ _), ?_⟩
  intro k hk
  have hm : (cookie + n * raw) % raw = cookie := by
    rw [Nat.add_mul_mod_self_right, Nat.mod_eq_of_lt hc]
  have h1 := h.aligned
  have h2 := h.inside
  simp only [newArrayArgs, hm] at h1 h2
  refine ⟨Nat.dvd_add h1 (Nat.dvd_trans hraw (Nat.dvd_mul_left _ _)), ?_⟩
  have : (k + 1) * raw ≤ n * raw := Nat.mul_le_mul_right _ hk
  rw [Nat.add_mul, Nat.one_mul] at this
  omega

example : GoodChunk 4096 (newArrayArgs 8192 (8 + 3 * 8192)).1 (newArrayArgs 8192 (8 + 3 * 8192)).2
    ⟨1000, 27672 + 4096, 4088⟩ :=
  ⟨⟨1, by decide⟩, by decide, by decide⟩

/-! ### C56: the `posix_memalign` variant -/

/-- **C56** is false: with `meta = 4088` (or any meta size congruent to -8) the `posix_memalign`
variant returns a chunk whose user range leaves the heap block. -/
theorem C56_false :
    ∃ A size metaSize buffer c, 0 < A ∧ A ∣ buffer ∧ buffer ≠ 0 ∧ 0 < size ∧
      attemptMemalign A size metaSize true buffer buffer = .done c ∧
      ¬ c.result + metaSize + size ≤ c.buffer + c.len :=
  ⟨4096, 4096, 4088, 8192, ⟨8192, 8192, 12296⟩, by decide, ⟨2, rfl⟩, by decide, by decide, by decide, by decide⟩

/-- **C56**, partial: unless pointer and meta info together fill a multiple of the alignment the
variant is correct (and never calls `realloc`). -/
theorem C56_memalign_partial (A size metaSize buffer r : Nat) (may : Bool) (hA : 0 < A) (hb : A ∣ buffer)
    (hb0 : buffer ≠ 0) (hm : (ptrSize + metaSize) % A ≠ 0) :
    ∃ c, attemptMemalign A size metaSize may buffer r = .done c ∧ c.buffer = buffer ∧
      GoodChunk A size metaSize c := by
  obtain ⟨h1, h2, h3⟩ := place_spec A metaSize buffer hA
  have hlt := Nat.mod_lt (ptrSize + metaSize) hA
  have hd := Nat.mod_add_div (ptrSize + metaSize) A
  have hres : placeResult A metaSize buffer = buffer + A * ((ptrSize + metaSize) / A + 1) - metaSize := by
    unfold placeResult
    simp only
    have : (buffer + ptrSize + metaSize) % A = (ptrSize + metaSize) % A := by
      obtain ⟨k, rfl⟩ := hb
      rw [Nat.add_assoc, Nat.mul_add_mod]
    rw [this, Nat.mul_add, Nat.mul_one]
    omega
  rw [Nat.mul_add, Nat.mul_one] at hres
  refine ⟨⟨buffer, A * ((ptrSize + metaSize) / A + 1) + size, placeResult A metaSize buffer⟩, ?_, rfl, h1, ?_, ?_⟩
  · unfold attemptMemalign
    simp only
    rw [if_neg hb0, if_neg (by omega), if_pos hm, if_neg]
    rw [Nat.mul_add, Nat.mul_one]
    omega
  · simp only; omega
  · simp only; rw [Nat.mul_add, Nat.mul_one]; omega

example : (ptrSize + 8) % 4096 ≠ 0 := by decide

/-! ### C47 -/

/-- **C47**: in every accepted instantiation, elements, BIDs, meta info lie one after the other
without overlap inside the raw size; the filler plus alignment padding is exactly the rest; and
one more element would not fit. -/
theorem C47_layout (p : TParams) (n f : Nat) (hM : 0 < p.aM) (h : p.accept = some (n, f)) :
    n * p.s ≤ p.refOff n ∧ p.refOff n + 16 * p.nref ≤ p.infoOff n ∧ p.infoOff n + p.m + f ≤ p.raw ∧
    p.raw - (p.infoOff n + p.m + f) < p.align ∧ p.sizeOf n f = p.raw ∧
    p.raw < (n + 1) * p.s + 16 * p.nref + p.m ∧ p.align ∣ p.raw := by
  unfold TParams.accept at h
  split at h
  · exact absurd h (by simp)
  · rename_i n' hn
    split at h
    · exact absurd h (by simp)
    · rename_i f' hf
      split at h
      · rename_i hs
        simp only [Option.some.injEq, Prod.mk.injEq] at h
        obtain ⟨rfl, rfl⟩ := h
        have hal : 0 < p.align := by
          unfold TParams.align; omega
        have e1 : n' * p.s ≤ p.refOff n' := by
          unfold TParams.refOff; split
          · exact Nat.le_refl _
          · exact le_roundUp _ _ (by omega)
        have e2 : p.refOff n' + 16 * p.nref ≤ p.infoOff n' := le_roundUp _ _ hM
        have e3 : p.dsize n' ≤ p.baseSize n' := le_roundUp _ _ hal
        have e4 : p.baseSize n' < p.dsize n' + p.align := roundUp_lt _ _ hal
        unfold TParams.filler at hf
        split at hf
        · rename_i hle
          simp only [Option.some.injEq] at hf
          unfold TParams.dsize at e3 e4
          refine ⟨e1, e2, by omega, by omega, hs, ?_, ?_⟩
          · unfold TParams.size at hn
            split at hn
            · rename_i hc
              simp only [Option.some.injEq] at hn
              have hd := Nat.mod_add_div (p.raw - 16 * p.nref - p.m) p.s
              have hlt := Nat.mod_lt (p.raw - 16 * p.nref - p.m) hc.2
              rw [hn] at hd
              rw [Nat.add_mul, Nat.one_mul, Nat.mul_comm n' p.s]
              omega
            · exact absurd hn (by simp)
          · unfold TParams.sizeOf at hs
            split at hs
            · rw [← hs]; exact dvd_roundUp _ _
            · rw [← hs]; exact dvd_roundUp _ _
        · exact absurd hf (by simp)
      · exact absurd h (by simp)

/-- **C47**, acceptance: if all the alignments divide the sizes (no padding is needed inside) and
the fixed parts fit, the instantiation compiles and elements, BIDs, meta info and filler add up to
exactly the raw size. -/
theorem C47_accepted (p : TParams) (hs : 0 < p.s) (hM : 0 < p.aM)
    (hfit : 16 * p.nref + p.m ≤ p.raw)
    (h8 : p.nref ≠ 0 → 8 ∣ p.s) (hMs : p.aM ∣ p.s) (hM16 : p.nref ≠ 0 → p.aM ∣ 16)
    (ha : p.align ∣ p.s) (ha16 : p.nref ≠ 0 → p.align ∣ 16) (ham : p.align ∣ p.m) (har : p.align ∣ p.raw) :
    ∃ n f, p.accept = some (n, f) ∧ n * p.s + 16 * p.nref + p.m + f = p.raw ∧ f < p.s := by
  have hal : 0 < p.align := by
    unfold TParams.align; omega
  have fix : ∀ x a, 0 < a → a ∣ x → roundUp x a = x := fun x a h1 h2 =>
    roundUp_eq_of_dvd x a x h1 h2 (Nat.le_refl _) (by omega)
  let n := (p.raw - 16 * p.nref - p.m) / p.s
  have hd := Nat.mod_add_div (p.raw - 16 * p.nref - p.m) p.s
  have hlt := Nat.mod_lt (p.raw - 16 * p.nref - p.m) hs
  have hn : p.size = some n := by
    unfold TParams.size; rw [if_pos ⟨hfit, hs⟩]
  have r1 : p.refOff n = n * p.s := by
    unfold TParams.refOff
    split
    · rfl
    · rename_i hz
      exact fix _ _ (by omega) (Nat.dvd_trans (h8 hz) (Nat.dvd_mul_left _ _))
  have d16 : ∀ a, (p.nref ≠ 0 → a ∣ 16) → a ∣ 16 * p.nref := by
    intro a h
    by_cases hz : p.nref = 0
    · rw [hz]; exact ⟨0, by simp⟩
    · exact Nat.dvd_trans (h hz) (Nat.dvd_mul_right _ _)
  have r2 : p.infoOff n = n * p.s + 16 * p.nref := by
    unfold TParams.infoOff
    rw [r1]
    exact fix _ _ hM (Nat.dvd_add (Nat.dvd_trans hMs (Nat.dvd_mul_left _ _)) (d16 _ hM16))
  have r3 : p.dsize n = n * p.s + 16 * p.nref + p.m := by
    unfold TParams.dsize; rw [r2]
  have hbd : p.align ∣ p.dsize n := by
    rw [r3]
    exact Nat.dvd_add (Nat.dvd_add (Nat.dvd_trans ha (Nat.dvd_mul_left _ _)) (d16 _ ha16)) ham
  have r4 : p.baseSize n = p.dsize n := by
    unfold TParams.baseSize; exact fix _ _ hal hbd
  have hmul : n * p.s + (p.raw - 16 * p.nref - p.m) % p.s + 16 * p.nref + p.m = p.raw := by
    have : n * p.s = p.s * ((p.raw - 16 * p.nref - p.m) / p.s) := Nat.mul_comm _ _
    omega
  have hf : p.filler n = some (p.raw - p.dsize n) := by
    unfold TParams.filler; rw [r4, if_pos (by omega)]
  refine ⟨n, p.raw - p.dsize n, ?_, by omega, by omega⟩
  unfold TParams.accept
  rw [hn]
  simp only
  rw [hf]
  simp only
  rw [if_pos]
  unfold TParams.sizeOf
  split
  · omega
  · rw [show p.dsize n + (p.raw - p.dsize n) = p.raw by omega]
    exact fix _ _ hal har

/-- **C47**, arrays: in an array of blocks of an accepted instantiation that starts at an address
which is a multiple of all alignments (powers of two), the elements, BIDs and meta info of every
block are at addresses their types allow. -/
theorem C47_aligned (p : TParams) (n f i j base k : Nat) (hT : p.aT = 2 ^ i) (hM : p.aM = 2 ^ j)
    (hs : p.aT ∣ p.s) (h : p.accept = some (n, f)) (h1 : p.aT ∣ base) (h2 : p.aM ∣ base) (h3 : p.nref ≠ 0 → 8 ∣ base) :
    (∀ e, p.aT ∣ base + k * p.raw + e * p.s) ∧ (p.nref ≠ 0 → ∀ r, 8 ∣ base + k * p.raw + p.refOff n + 16 * r) ∧
    p.aM ∣ base + k * p.raw + p.infoOff n := by
  have hm0 : 0 < p.aM := by rw [hM]; exact Nat.pow_pos (by omega)
  have hal := (C47_layout p n f hm0 h).2.2.2.2.2.2
  have e8 : (8 : Nat) = 2 ^ 3 := rfl
  have mx : ∀ a b : Nat, max (2 ^ a) (2 ^ b) = 2 ^ max a b := fun a b => by
    rcases Nat.le_total a b with hab | hab
    · rw [Nat.max_eq_right (Nat.pow_le_pow_right (by omega) hab), Nat.max_eq_right hab]
    · rw [Nat.max_eq_left (Nat.pow_le_pow_right (by omega) hab), Nat.max_eq_left hab]
  have hz : ∃ c, (if p.nref = 0 then 1 else 8) = 2 ^ c ∧ (p.nref ≠ 0 → c = 3) := by
    split
    · rename_i hz; exact ⟨0, rfl, fun h => absurd hz h⟩
    · exact ⟨3, rfl, fun _ => rfl⟩
  obtain ⟨c, hc, hc3⟩ := hz
  have ha : p.align = 2 ^ max (max i j) c := by
    unfold TParams.align
    rw [hc, hT, hM, mx, mx]
  rw [ha] at hal
  have d : ∀ x, x ≤ max (max i j) c → 2 ^ x ∣ k * p.raw := fun x hx =>
    Nat.dvd_trans (Nat.pow_dvd_pow 2 hx) (Nat.dvd_trans hal (Nat.dvd_mul_left _ _))
  refine ⟨fun e => ?_, fun hn r => ?_, ?_⟩
  · exact Nat.dvd_add (Nat.dvd_add h1 (hT ▸ d i (by omega))) (Nat.dvd_trans hs (Nat.dvd_mul_left _ _))
  · refine Nat.dvd_add (Nat.dvd_add (Nat.dvd_add (h3 hn) (e8 ▸ d 3 (by have := hc3 hn; omega))) ?_) ⟨2 * r, by omega⟩
    unfold TParams.refOff
    rw [if_neg hn]
    exact dvd_roundUp _ _
  · exact Nat.dvd_add (Nat.dvd_add h2 (hM ▸ d j (by omega))) (dvd_roundUp _ _)

/-- blocks of bytes with one BID: the BIDs decide the alignment -/
example : (TParams.mk 4096 1 1 1 0 1).accept = some (4080, 0) ∧ (TParams.mk 4100 1 1 1 0 1).accept = none := by decide

/-- 4 KiB blocks of 24-byte elements with 2 BIDs and 8 bytes of meta info -/
example : (TParams.mk 4096 24 8 2 8 8).accept = some (169, 0) := by decide
/-- with filler: 4 KiB blocks of 24-byte elements -/
example : (TParams.mk 4096 24 8 0 0 1).accept = some (170, 16) := by decide
/-- rejected at compile time because of padding -/
example : (TParams.mk 4096 1 1 1 1 1).accept = none := by decide

/-! ### C48 -/

/-- `r` is the least multiple of `d` that is at least `n`. -/
def LeastMultiple (n d r : Nat) : Prop := d ∣ r ∧ n ≤ r ∧ ∀ r', d ∣ r' → n ≤ r' → r ≤ r'

/-- **C48**, `div_ceil`: the least `k` with `n ≤ k*d`; undefined exactly for `d = 0`. -/
theorem C48_div_ceil (n d : Nat) :
    (d = 0 → divCeil n d = none) ∧
    (0 < d → ∃ k, divCeil n d = some k ∧ n ≤ k * d ∧ ∀ k', n ≤ k' * d → k ≤ k') := by
  constructor
  · intro h; simp [divCeil, h]
  · intro h
    have hm := Nat.mod_add_div n d
    have hlt := Nat.mod_lt n h
    refine ⟨_, by unfold divCeil; rw [if_neg (by omega)], ?_, ?_⟩
    · rw [Nat.add_mul, Nat.mul_comm (n / d)]
      split
      · omega
      · omega
    · intro k' hk
      have hle : n / d ≤ k' := by
        have : n / d ≤ k' * d / d := Nat.div_le_div_right hk
        rwa [Nat.mul_div_cancel _ h] at this
      split
      · rename_i hne
        rcases Nat.lt_or_ge (n / d) k' with hl | hg
        · omega
        · have : k' = n / d := by omega
          rw [this, Nat.mul_comm] at hk
          omega
      · omega

example : divCeil 4097 4096 = some 2 := by decide

/-- **C48**, `round_up_to_power_of_two(n, power)`: the least multiple of `2^power` that is at
least `n`, modulo `2^64` (it wraps to 0 when that multiple is `2^64`). -/
theorem C48_round_up (n : BitVec 64) (power : Nat) (hp : power < 64) :
    ∃ r, LeastMultiple n.toNat (2 ^ power) r ∧
      ∃ v, roundUpPow2 n power = some v ∧ v.toNat = r % 2 ^ 64 ∧ (r ≤ 2 ^ 64 - 2 ^ power → v.toNat = r) := by
  have hpp := Nat.two_pow_pos power
  have hple : 2 ^ power < 2 ^ 64 := Nat.pow_lt_pow_right (by decide) hp
  have hpot : (1#64 <<< power : BitVec 64).toNat = 2 ^ power := by
    rw [BitVec.toNat_shiftLeft, BitVec.toNat_ofNat, Nat.shiftLeft_eq, Nat.mod_eq_of_lt (by decide : 1 < 2 ^ 64),
      Nat.one_mul, Nat.mod_eq_of_lt hple]
  have hmask : (1#64 <<< power - 1#64 : BitVec 64).toNat = 2 ^ power - 1 := by
    rw [BitVec.toNat_sub, hpot, BitVec.toNat_ofNat, Nat.mod_eq_of_lt (by decide : 1 < 2 ^ 64),
      show 2 ^ 64 - 1 + 2 ^ power = (2 ^ power - 1) + 2 ^ 64 by omega, Nat.add_mod_right,
      Nat.mod_eq_of_lt (by omega)]
  have hlow : (n &&& (1#64 <<< power - 1#64)).toNat = n.toNat % 2 ^ power := by
    rw [BitVec.toNat_and, hmask, Nat.and_two_pow_sub_one_eq_mod]
  have hdm := Nat.mod_add_div n.toNat (2 ^ power)
  have hmlt := Nat.mod_lt n.toNat hpp
  have hhigh : (n &&& ~~~(1#64 <<< power - 1#64)).toNat = 2 ^ power * (n.toNat / 2 ^ power) := by
    have hb : ∀ i, (1#64 <<< power - 1#64 : BitVec 64).getLsbD i = decide (i < power) := by
      intro i
      rw [BitVec.getLsbD, hmask, Nat.testBit_two_pow_sub_one]
    have : n &&& ~~~(1#64 <<< power - 1#64) = (n >>> power) <<< power := by
      apply BitVec.eq_of_getLsbD_eq
      intro i hi
      rw [BitVec.getLsbD_and, BitVec.getLsbD_not, hb, BitVec.getLsbD_shiftLeft, BitVec.getLsbD_ushiftRight]
      by_cases h : i < power
      · simp [h]
      · simp [h, hi, show power + (i - power) = i by omega]
    rw [this, BitVec.toNat_shiftLeft, BitVec.toNat_ushiftRight, Nat.shiftLeft_eq, Nat.shiftRight_eq_div_pow,
      Nat.mul_comm, Nat.mod_eq_of_lt (by have := n.isLt; omega)]
  have hcond : n &&& (1#64 <<< power - 1#64) ≠ 0#64 ↔ n.toNat % 2 ^ power ≠ 0 := by
    rw [← hlow, Ne, ← BitVec.toNat_inj]; simp
  have hn := n.isLt
  by_cases hc : n.toNat % 2 ^ power = 0
  · refine ⟨n.toNat, ⟨Nat.dvd_of_mod_eq_zero hc, Nat.le_refl _, fun r' _ h => h⟩, n, ?_, ?_, fun _ => rfl⟩
    · unfold roundUpPow2
      rw [if_pos hp]
      simp only
      rw [if_neg (by rw [hcond]; omega)]
    · rw [Nat.mod_eq_of_lt hn]
  · refine ⟨2 ^ power * (n.toNat / 2 ^ power) + 2 ^ power, ⟨?_, by omega, ?_⟩,
      (n &&& ~~~(1#64 <<< power - 1#64)) + 1#64 <<< power, ?_, ?_, ?_⟩
    · exact Nat.dvd_add (Nat.dvd_mul_right _ _) (Nat.dvd_refl _)
    · rintro r' ⟨k, rfl⟩ hr
      have : n.toNat / 2 ^ power < k := by
        rcases Nat.lt_or_ge (n.toNat / 2 ^ power) k with h | h
        · exact h
        · have := Nat.mul_le_mul_left (2 ^ power) h
          omega
      have := Nat.mul_le_mul_left (2 ^ power) this
      rw [Nat.mul_succ] at this
      exact this
    · unfold roundUpPow2
      rw [if_pos hp]
      simp only
      rw [if_pos (by rw [hcond]; exact hc)]
    · rw [BitVec.toNat_add, hhigh, hpot]
    · intro hle
      rw [BitVec.toNat_add, hhigh, hpot]
      exact Nat.mod_eq_of_lt (by omega)

/-- the two examples of the doc comment: (48,4) = 48, (48,5) = 64 – the comment's "(48,4) = 64"
is wrong since 48 = 3 * 2^4 -/
example : roundUpPow2 48#64 4 = some 48#64 ∧ roundUpPow2 48#64 5 = some 64#64 := by decide

/-! ### C55: longhash1 is a bijection -/

/-- **C55**: `longhash1` never maps two different 64-bit keys to the same value. -/
theorem C55_longhash1_injective (x y : BitVec 64) (h : longhash1 x = longhash1 y) : x = y := by
  unfold longhash1 at h
  simp only at h
  have h := xorshift_inj 31 (by decide) _ _ h
  have h := addnot_inj 27 (BitVec.ofNat 64 18014398643699713) (by decide) _ _ h
  have h := xorshift_inj 15 (by decide) _ _ h
  have h := add8_inj _ _ h
  have h := xorshift_inj 8 (by decide) _ _ h
  have h := addnot_inj 13 (BitVec.ofNat 64 4504149450301441) (by decide) _ _ h
  have h := xorshift_inj 22 (by decide) _ _ h
  exact addnot_inj 32 (BitVec.ofNat 64 4294967297) (by decide) _ _ h

end Foxxll.Arith
