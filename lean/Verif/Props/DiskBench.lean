/-
Properties C105, C106 and C107 of the tools `benchmark_disks_random` and `benchmark_disks`.
-/
import Verif.Proofs.DiskBench

namespace Foxxll.DiskBench

/-! ### C105: random access visits the work set

In full: `benchmark_disks_random` accesses as many different blocks as asked for, in batches of the given size. -/

/-- **C105 fails** for an empty span: division by zero. -/
theorem C105_false (bs work : Nat) (h : bs ≤ 128 * 2 ^ 20) : plan 0 bs work 0 = .undefined := by
  unfold plan
  rw [if_neg (by omega)]
  rcases Nat.eq_zero_or_pos bs with h0 | h0
  · subst h0; rfl
  · obtain ⟨q, h1, _⟩ := divCeil_some (n := work) h0
    have h2 : Arith.divCeil 0 bs = some 0 := by simp [Arith.divCeil]; omega
    simp only [h1, h2, Nat.min_zero, Nat.zero_mul, if_true]
    rfl

/-- **C105**, partial: for a nonempty span and blocks of at most 128 MiB, the tool accesses each of the first `numBlocks` blocks of the
shuffled sequence exactly once, in the announced number of batches, of the given size except the last one; the requests fit into their array. -/
theorem C105_partial (span bs work batch : Nat) (hs : 0 < span) (hb : 0 < bs) (hb' : bs ≤ 128 * 2 ^ 20) :
    ∃ p l, plan span bs work batch = .done p ∧ randomAccess p = .done l ∧
      (span ≤ p.inSpan * bs ∧ p.inSpan * bs < span + bs) ∧
      (work = 0 → p.numBlocks = p.inSpan) ∧
      (0 < work → span ≤ work → p.numBlocks = p.inSpan) ∧
      (0 < work → work ≤ span → work ≤ p.numBlocks * bs ∧ p.numBlocks * bs < work + bs) ∧
      l.flatten = List.range p.numBlocks ∧ l.length = p.numBatches ∧
      (∀ b ∈ l, 0 < b.length ∧ b.length ≤ p.inSpan ∧ (0 < batch → b.length * bs < batch + bs)) ∧
      (batch = 0 → l.length = 1) := by
  obtain ⟨n0, a1, a2, a3⟩ := divCeil_some (n := work) hb
  obtain ⟨sp, b1, b2, b3⟩ := divCeil_some (n := span) hb
  have hsp : 0 < sp := by
    rcases Nat.eq_zero_or_pos sp with h | h
    · subst h; omega
    · exact h
  have hnpos : 0 < (if min n0 sp = 0 then sp else min n0 sp) := by split <;> omega
  have hnle : (if min n0 sp = 0 then sp else min n0 sp) ≤ sp := by split <;> omega
  have hbb : 0 < (if batch = 0 then (if min n0 sp = 0 then sp else min n0 sp) * bs else batch) := by
    split
    · exact Nat.mul_pos hnpos hb
    · omega
  obtain ⟨ib, c1, c2, c3⟩ := divCeil_some (n := if batch = 0 then (if min n0 sp = 0 then sp else min n0 sp) * bs else batch) hb
  have hib : 0 < ib := by
    rcases Nat.eq_zero_or_pos ib with h | h
    · subst h; omega
    · exact h
  obtain ⟨nb, d1, d2, d3⟩ := divCeil_some (n := if min n0 sp = 0 then sp else min n0 sp) hib
  obtain ⟨l, e1, e2, e3, e4, e5⟩ := rounds_spec ib hib ((if min n0 sp = 0 then sp else min n0 sp) + 1) 0 (if min n0 sp = 0 then sp else min n0 sp) (Nat.lt_succ_self _)
  refine ⟨{ numBlocks := if min n0 sp = 0 then sp else min n0 sp, inSpan := sp, inBatch := ib, numBatches := nb }, l, ?_, e1, ⟨b2, b3⟩, ?_, ?_, ?_, ?_, ?_, ?_, ?_⟩
  · unfold plan
    rw [if_neg (by omega), a1, b1]
    simp only [c1, d1]
  · intro h
    subst h
    have : n0 = 0 := by
      have : n0 * bs < 1 * bs := by omega
      have := Nat.lt_of_mul_lt_mul_right this
      omega
    subst this
    simp
  · intro h1 h2
    have : sp ≤ n0 := by
      have : sp * bs < (n0 + 1) * bs := by rw [Nat.add_mul]; omega
      have := Nat.lt_of_mul_lt_mul_right this
      omega
    simp only
    rw [Nat.min_eq_right this, if_neg (by omega)]
  · intro h1 h2
    have : n0 ≤ sp := by
      have : n0 * bs < (sp + 1) * bs := by rw [Nat.add_mul]; omega
      have := Nat.lt_of_mul_lt_mul_right this
      omega
    have h0 : n0 ≠ 0 := by rintro rfl; omega
    simp only
    rw [Nat.min_eq_left this, if_neg h0]
    exact ⟨a2, a3⟩
  · rw [e2]; simp
  · show l.length = nb
    exact mul_inj (d := ib) (by omega) (by omega)
  · intro b hb''
    obtain ⟨g1, g2, g3⟩ := e3 b hb''
    refine ⟨g1, Nat.le_trans g3 hnle, ?_⟩
    intro h
    rw [if_neg (by omega)] at c3
    have := Nat.mul_le_mul_right bs g2
    omega
  · intro h
    rw [if_pos h] at c2 c3
    have : ib = (if min n0 sp = 0 then sp else min n0 sp) := mul_inj (d := bs) (by omega) (by omega)
    rw [← this] at e4 e5
    exact mul_inj (d := ib) (by omega) (by omega)

/-- Ten blocks of 4 KiB, of which seven are accessed in batches of three. -/
example : plan 40000 4096 28000 10000 = .done { numBlocks := 7, inSpan := 10, inBatch := 3, numBatches := 3 } ∧
    randomAccess { numBlocks := 7, inSpan := 10, inBatch := 3, numBatches := 3 } = .done [[0, 1, 2], [3, 4, 5], [6]] := by decide +kernel

/-! ### C106: amounts of data are right

In full: `benchmark_disks` transfers the given amount of data and reports the amount it transferred. -/

/-- **C106 fails**: one block of 8 MiB is transferred, one byte is reported. -/
theorem C106_false : ∃ l, benchmarkDisks 1 1 0 1 8388608 (fun _ => false) = .done l ∧ totalSize l = 1 ∧ ((l.filter (·.moved)).map (fun b => b.nblocks * 8388608)).sum = 8388608 :=
  ⟨[{ offset := 0, bytes := 1, nblocks := 1, first := 0, moved := true }], by decide +kernel, by decide, by decide⟩

/-- **C106 fails** for starting offsets that are not multiples of the batch size: with offset 1 and size 8 MiB, one byte is processed. -/
theorem C106_false_offset : ∃ l, benchmarkDisks 1 8388608 1 1 8388608 (fun _ => false) = .done l ∧ totalSize l = 1 :=
  ⟨[{ offset := 0, bytes := 8388608, nblocks := 1, first := 0, moved := false }, { offset := 8388608, bytes := 1, nblocks := 1, first := 1, moved := true }],
    by
      unfold benchmarkDisks
      rw [perBatch_eq (by decide)]
      simp only [endOf]
      rfl, by decide⟩

/-- **C106**, partial: without time limit, the amount reported is what remains behind the starting offset rounded up to a whole
batch; it is at most a block less than what is transferred, and equal if the range ends with a block.  No block is used twice and the
blocks of a batch fit into the buffers. -/
theorem C106_partial (D size start batch raw : Nat) (hD : 0 < D) (hr : 0 < raw) (hsize : 0 < size) :
    ∃ n l, n = (if batch = 0 then D else batch) ∧ benchmarkDisks D size start batch raw (fun _ => false) = .done l ∧
      totalSize l = start + size - (start + (n * raw - 1)) / (n * raw) * (n * raw) ∧
      totalSize l ≤ ((l.filter (·.moved)).map (fun b => b.nblocks * raw)).sum ∧ ((l.filter (·.moved)).map (fun b => b.nblocks * raw)).sum < totalSize l + raw ∧
      ((start + size) % raw = 0 → ((l.filter (·.moved)).map (fun b => b.nblocks * raw)).sum = totalSize l) ∧
      (∃ t, (l.flatMap fun b => (List.range b.nblocks).map (· + b.first)) = List.range t) ∧
      (∀ b ∈ l, b.nblocks ≤ n ∧ b.bytes ≤ b.nblocks * raw ∧ (b.bytes = n * raw ∨ b.offset + b.bytes = start + size)) := by
  have hn : 0 < (if batch = 0 then D else batch) := by split <;> omega
  obtain ⟨l, h1, h2, ⟨t, h3⟩, h4, h5, h6, h7⟩ := batches_spec (endOf size start) start (if batch = 0 then D else batch) raw hr hn (endOf size start + 1) 0 0 0
    (Nat.zero_le _) (by omega) (Nat.zero_mod _)
  have he : endOf size start = start + size := by unfold endOf; rw [if_neg (by omega)]
  refine ⟨_, l, rfl, ?_, ?_, h5, h6, ?_, ⟨t, ?_⟩, ?_⟩
  · unfold benchmarkDisks
    rw [perBatch_eq hr]
    exact h1
  · rw [h4, he]
    split
    · have : start = 0 := by omega
      subst this
      have : 0 < (if batch = 0 then D else batch) * raw := Nat.mul_pos hn hr
      rw [Nat.div_eq_of_lt (by omega), Nat.zero_mul]
    · rfl
  · intro h
    rw [← he] at h
    exact h7 h
  · have : used l = _ := h3
    unfold used at this
    rw [this]; simp
  · intro b hb
    obtain ⟨a1, a2, _, _, _, _, a7⟩ := h2 b hb
    rw [he] at a7
    exact ⟨a1, a2, a7⟩

/-- Two disks, three batches of two blocks of 8 bytes, from offset 16 on. -/
example : benchmarkDisks 2 32 16 0 8 (fun _ => false) = .done [⟨0, 16, 2, 0, false⟩, ⟨16, 16, 2, 2, true⟩, ⟨32, 16, 2, 4, true⟩] := by decide +kernel

/-! ### C107: striping

In full: with the strategy `striping`, `benchmark_disks` distributes the blocks evenly over the disks: the numbers of blocks of two disks
differ by at most one. -/

/-- **C107 fails** with batches of one block: all blocks are on the first disk. -/
theorem C107_false : ∃ l, benchmarkDisks 2 64 0 1 8 (fun _ => false) = .done l ∧ l.length = 8 ∧
    ∀ b ∈ l, batchDisks (Strategy.striping 0 2) b = [some 0] :=
  ⟨[⟨0, 8, 1, 0, true⟩, ⟨8, 8, 1, 1, true⟩, ⟨16, 8, 1, 2, true⟩, ⟨24, 8, 1, 3, true⟩, ⟨32, 8, 1, 4, true⟩, ⟨40, 8, 1, 5, true⟩, ⟨48, 8, 1, 6, true⟩, ⟨56, 8, 1, 7, true⟩],
    by decide +kernel, rfl, by decide +kernel⟩

/-- **C107**, partial: if the number of blocks of a batch is a multiple of the number of disks (as by default), every disk gets the
same number of blocks of the batch. -/
theorem C107_partial (D q : Nat) (b : Batch) (hb : b.nblocks = q * D) (d : Nat) (hd : d < D) :
    (batchDisks (Strategy.striping 0 D) b).count (some d) = q := by
  unfold batchDisks
  rw [hb, List.count, List.countP_map]
  refine Eq.trans (List.countP_congr ?_) (count_mod hd q)
  intro i _
  have hD : ¬ D - 0 = 0 := by omega
  simp [diskOfBlock, Strategy.striping, Strategy.mod?, show ¬ D = 0 by omega]

/-- Default batches on three disks. -/
example : perBatch 3 0 4096 = some 3 ∧ batchDisks (Strategy.striping 0 3) ⟨0, 3 * 4096, 3, 0, true⟩ = [some 0, some 1, some 2] := by decide +kernel

end Foxxll.DiskBench
