import Verif.Model.DiskBench

namespace Foxxll.DiskBench

theorem divCeil_some {n d : Nat} (hd : 0 < d) : ∃ q, Arith.divCeil n d = some q ∧ n ≤ q * d ∧ q * d < n + d := by
  unfold Arith.divCeil
  rw [if_neg (by omega)]
  refine ⟨_, rfl, ?_⟩
  have h1 := Nat.div_add_mod' n d
  have h2 := Nat.mod_lt n hd
  split
  · rw [Nat.add_mul]; omega
  · rw [Nat.add_zero]; omega

theorem ceil_eq {n d q : Nat} (h : Arith.divCeil n d = some q) : 0 < d ∧ n ≤ q * d ∧ q * d < n + d := by
  have hd : 0 < d := by
    rcases Nat.eq_zero_or_pos d with h0 | h0
    · subst h0; cases h
    · exact h0
  obtain ⟨q', h1, h2⟩ := divCeil_some (n := n) hd
  rw [h] at h1
  injection h1 with h1
  subst h1
  exact ⟨hd, h2⟩

theorem mul_inj {a b d : Nat} (h1 : a * d < b * d + d) (h2 : b * d < a * d + d) : a = b := by
  have h3 : a < b + 1 := by
    apply Nat.lt_of_mul_lt_mul_right (a := d); rw [Nat.add_mul]; omega
  have h4 : b < a + 1 := by
    apply Nat.lt_of_mul_lt_mul_right (a := d); rw [Nat.add_mul]; omega
  omega

theorem perBatch_eq {D batch raw : Nat} (hr : 0 < raw) : perBatch D batch raw = some (if batch = 0 then D else batch) := by
  unfold perBatch
  obtain ⟨q, h1, h2, h3⟩ := divCeil_some (n := raw * (if batch = 0 then D else batch)) hr
  rw [h1]
  congr 1
  rw [Nat.mul_comm raw] at h2 h3
  apply mul_inj (d := raw) <;> omega

/-- The blocks used by batches, as positions in `bids`. -/
def used (l : List Batch) : List Nat := l.flatMap fun b => (List.range b.nblocks).map (· + b.first)

/-- Bytes transferred: whole blocks. -/
def movedBytes (raw : Nat) (l : List Batch) : Nat := ((l.filter (·.moved)).map (fun b => b.nblocks * raw)).sum

theorem batches_spec (endpos start n raw : Nat) (hr : 0 < raw) (hn : 0 < n) : ∀ (fuel k offset total : Nat), offset ≤ endpos → endpos < fuel + offset → offset % (n * raw) = 0 →
    ∃ l, batches endpos start (n * raw) raw (fun _ => false) fuel k offset total = .done l ∧
      (∀ b ∈ l, b.nblocks ≤ n ∧ b.bytes ≤ b.nblocks * raw ∧ b.offset % (n * raw) = 0 ∧ offset ≤ b.offset ∧ b.offset + b.bytes ≤ endpos ∧ (b.moved = true ↔ start ≤ b.offset) ∧
        (b.bytes = n * raw ∨ b.offset + b.bytes = endpos)) ∧
      (∃ t, used l = (List.range t).map (· + total)) ∧
      totalSize l = (if start ≤ offset then endpos - offset else endpos - (start + (n * raw - 1)) / (n * raw) * (n * raw)) ∧
      totalSize l ≤ movedBytes raw l ∧ movedBytes raw l < totalSize l + raw ∧ (endpos % raw = 0 → movedBytes raw l = totalSize l) := by
  have hB : 0 < n * raw := Nat.mul_pos hn hr
  intro fuel
  induction fuel with
  | zero =>
    intro k offset total h' h
    omega
  | succ fuel ih =>
    intro k offset total h' h hmod
    have hroundup : ¬ start ≤ offset → offset + n * raw ≤ (start + (n * raw - 1)) / (n * raw) * (n * raw) := by
      intro h1
      have e := Nat.div_add_mod' offset (n * raw)
      rw [hmod, Nat.add_zero] at e
      have : offset / (n * raw) + 1 ≤ (start + (n * raw - 1)) / (n * raw) := by
        rw [Nat.le_div_iff_mul_le hB, Nat.add_mul]
        omega
      have := Nat.mul_le_mul_right (n * raw) this
      rw [Nat.add_mul] at this
      omega
    have hround2 : (start + (n * raw - 1)) / (n * raw) * (n * raw) < start + n * raw := by
      have := Nat.div_mul_le_self (start + (n * raw - 1)) (n * raw)
      omega
    by_cases hlt : offset < endpos
    · obtain ⟨q, h1, h2, h3⟩ := divCeil_some (n := min (n * raw) (endpos - offset)) hr
      have hq : q ≤ n := by
        have : q * raw < (n + 1) * raw := by rw [Nat.add_mul]; omega
        have := Nat.lt_of_mul_lt_mul_right this
        omega
      by_cases hfull : n * raw ≤ endpos - offset
      · have hmin : min (n * raw) (endpos - offset) = n * raw := Nat.min_eq_left hfull
        rw [hmin] at h1 h2 h3
        have hqn : q = n := mul_inj (d := raw) (by omega) (by omega)
        subst hqn
        obtain ⟨l, e1, e2, ⟨t, e3⟩, e4, e5, e6, e7⟩ := ih (k + 1) (offset + q * raw) (total + q) (by omega) (by omega) (by rw [Nat.add_mod, hmod, Nat.mod_self]; rfl)
        refine ⟨{ offset, bytes := q * raw, nblocks := q, first := total, moved := decide (start ≤ offset) } :: l, ?_, ?_, ?_, ?_⟩
        · unfold batches
          rw [if_pos hlt, hmin]
          simp only [h1, Bool.and_false, Bool.false_eq_true, if_false]
          rw [e1]
        · intro b hb
          rcases List.mem_cons.1 hb with rfl | hb
          · exact ⟨Nat.le_refl _, Nat.le_refl _, hmod, Nat.le_refl _, by simp only; omega, by simp, Or.inl rfl⟩
          · obtain ⟨a1, a2, a3, a4, a5, a6, a7⟩ := e2 b hb
            exact ⟨a1, a2, a3, by omega, a5, a6, a7⟩
        · refine ⟨q + t, ?_⟩
          have : used ({ offset, bytes := q * raw, nblocks := q, first := total, moved := decide (start ≤ offset) } :: l) =
              (List.range q).map (· + total) ++ used l := by unfold used; rw [List.flatMap_cons]
          rw [this, e3, List.range_add, List.map_append, List.map_map]
          congr 1
          apply List.map_congr_left
          intro x _
          simp only [Function.comp_apply]
          omega
        · by_cases hs : start ≤ offset
          · have hT : totalSize ({ offset, bytes := q * raw, nblocks := q, first := total, moved := decide (start ≤ offset) } :: l) = q * raw + totalSize l := by
              unfold totalSize
              rw [List.filter_cons, if_pos (by simpa using hs), List.map_cons, List.sum_cons]
            have hM : movedBytes raw ({ offset, bytes := q * raw, nblocks := q, first := total, moved := decide (start ≤ offset) } :: l) = q * raw + movedBytes raw l := by
              unfold movedBytes
              rw [List.filter_cons, if_pos (by simpa using hs), List.map_cons, List.sum_cons]
            rw [hT, hM, e4, if_pos hs, if_pos (show start ≤ offset + q * raw by omega)]
            rw [e4, if_pos (show start ≤ offset + q * raw by omega)] at e5 e6 e7
            exact ⟨by omega, by omega, by omega, fun h => by rw [e7 h]⟩
          · have hT : totalSize ({ offset, bytes := q * raw, nblocks := q, first := total, moved := decide (start ≤ offset) } :: l) = totalSize l := by
              unfold totalSize
              rw [List.filter_cons, if_neg (by simpa using hs)]
            have hM : movedBytes raw ({ offset, bytes := q * raw, nblocks := q, first := total, moved := decide (start ≤ offset) } :: l) = movedBytes raw l := by
              unfold movedBytes
              rw [List.filter_cons, if_neg (by simpa using hs)]
            rw [hT, hM, if_neg hs]
            refine ⟨?_, e5, e6, e7⟩
            rw [e4]
            split
            · rename_i h5
              have := hroundup hs
              have e : (start + (q * raw - 1)) / (q * raw) * (q * raw) = offset + q * raw := by
                have e1 := Nat.div_add_mod' offset (q * raw)
                rw [hmod, Nat.add_zero] at e1
                have : (start + (q * raw - 1)) / (q * raw) = offset / (q * raw) + 1 := by
                  apply mul_inj (d := q * raw)
                  · rw [Nat.add_mul]; omega
                  · rw [Nat.add_mul]; omega
                rw [this, Nat.add_mul]; omega
              rw [e]
            · rfl
      · have hmin : min (n * raw) (endpos - offset) = endpos - offset := Nat.min_eq_right (by omega)
        rw [hmin] at h1 h2 h3
        refine ⟨[{ offset, bytes := endpos - offset, nblocks := q, first := total, moved := decide (start ≤ offset) }], ?_, ?_, ?_, ?_⟩
        · unfold batches
          rw [if_pos hlt, hmin]
          simp only [h1, Bool.and_false, Bool.false_eq_true, if_false]
          have : batches endpos start (n * raw) raw (fun _ => false) fuel (k + 1) (offset + (endpos - offset)) (total + q) = .done [] := by
            cases fuel with
            | zero => omega
            | succ fuel => unfold batches; rw [if_neg (by omega)]
          rw [this]
        · intro b hb
          rw [List.mem_singleton] at hb
          subst hb
          exact ⟨hq, h2, hmod, Nat.le_refl _, by simp only; omega, by simp, Or.inr (by simp only; omega)⟩
        · exact ⟨q, by simp [used]⟩
        · by_cases hs : start ≤ offset
          · have hT : totalSize [{ offset, bytes := endpos - offset, nblocks := q, first := total, moved := decide (start ≤ offset) }] = endpos - offset := by
              simp [totalSize, hs]
            have hM : movedBytes raw [{ offset, bytes := endpos - offset, nblocks := q, first := total, moved := decide (start ≤ offset) }] = q * raw := by
              simp [movedBytes, hs]
            rw [hT, hM, if_pos hs]
            refine ⟨rfl, h2, by omega, ?_⟩
            intro hm
            have h4 : offset % raw = 0 := by
              have := Nat.mod_mul_left_mod offset n raw
              rw [hmod, Nat.zero_mod] at this
              exact this.symm
            have h5 : (endpos - offset) % raw = 0 := by
              rw [← Nat.dvd_iff_mod_eq_zero] at hm h4 ⊢
              exact Nat.dvd_sub hm h4
            have h6 := Nat.div_add_mod' (endpos - offset) raw
            have : q = (endpos - offset) / raw := mul_inj (d := raw) (by omega) (by omega)
            rw [this]; omega
          · have hT : totalSize [{ offset, bytes := endpos - offset, nblocks := q, first := total, moved := decide (start ≤ offset) }] = 0 := by
              simp [totalSize, hs]
            have hM : movedBytes raw [{ offset, bytes := endpos - offset, nblocks := q, first := total, moved := decide (start ≤ offset) }] = 0 := by
              simp [movedBytes, hs]
            rw [hT, hM, if_neg hs]
            have := hroundup hs
            exact ⟨by omega, Nat.le_refl _, by omega, fun _ => rfl⟩
    · refine ⟨[], (by unfold batches; rw [if_neg hlt]), (fun b hb => by cases hb), ⟨0, rfl⟩, ?_, ?_, ?_, ?_⟩
      · show 0 = _
        split
        · omega
        · rename_i h5
          have := hroundup h5
          omega
      · exact Nat.le_refl _
      · show 0 < 0 + raw; omega
      · intro _; rfl

theorem rounds_spec (inBatch : Nat) (hb : 0 < inBatch) : ∀ (fuel offset remaining : Nat), remaining < fuel →
    ∃ l, rounds inBatch fuel offset remaining = .done l ∧ l.flatten = (List.range remaining).map (· + offset) ∧
      (∀ b ∈ l, 0 < b.length ∧ b.length ≤ inBatch ∧ b.length ≤ remaining) ∧ remaining ≤ l.length * inBatch ∧ l.length * inBatch < remaining + inBatch := by
  intro fuel
  induction fuel with
  | zero => intro _ _ h; omega
  | succ fuel ih =>
    intro offset remaining h
    unfold rounds
    by_cases h0 : remaining = 0
    · subst h0
      exact ⟨[], (by simp), rfl, (fun b hb => by cases hb), (by simp), (by simp; omega)⟩
    · obtain ⟨l, e1, e2, e3, e4, e5⟩ := ih (offset + min inBatch remaining) (remaining - min inBatch remaining) (by omega)
      refine ⟨(List.range (min inBatch remaining)).map (· + offset) :: l, ?_, ?_, ?_, ?_, ?_⟩
      · rw [if_pos h0]; simp only; rw [e1]
      · rw [List.flatten_cons, e2]
        have : remaining = min inBatch remaining + (remaining - min inBatch remaining) := by omega
        conv => rhs; rw [this, List.range_add, List.map_append, List.map_map]
        congr 1
        apply List.map_congr_left
        intro x _
        simp only [Function.comp_apply]; omega
      · intro b hb'
        rcases List.mem_cons.1 hb' with rfl | hb'
        · simp only [List.length_map, List.length_range]; omega
        · have := e3 b hb'; omega
      · rw [List.length_cons, Nat.add_mul]; omega
      · rw [List.length_cons, Nat.add_mul]
        by_cases h1 : inBatch ≤ remaining
        · rw [Nat.min_eq_left h1] at e4 e5; omega
        · rw [Nat.min_eq_right (by omega)] at e5
          rw [Nat.sub_self] at e5
          have : l.length = 0 := by
            have : l.length * inBatch < 1 * inBatch := by omega
            have := Nat.lt_of_mul_lt_mul_right this
            omega
          rw [this]; omega

theorem count_mod {D d : Nat} (hd : d < D) (q : Nat) : (List.range (q * D)).countP (fun i => decide (i % D = d)) = q := by
  induction q with
  | zero => simp
  | succ q ih =>
    rw [Nat.add_mul, Nat.one_mul, List.range_add, List.countP_append, ih, List.countP_map]
    congr 1
    have : ∀ D' : Nat, D' ≤ D → (List.range D').countP ((fun i => decide (i % D = d)) ∘ fun x => q * D + x) = if d < D' then 1 else 0 := by
      intro D' hD'
      induction D' with
      | zero => simp
      | succ D' ih' =>
        rw [List.range_succ, List.countP_append, ih' (by omega)]
        simp only [List.countP_cons, List.countP_nil, Function.comp_apply, decide_eq_true_eq]
        rw [Nat.mul_comm q D, Nat.mul_add_mod, Nat.mod_eq_of_lt (by omega)]
        by_cases h1 : D' = d
        · subst h1; rw [if_neg (by omega), if_pos rfl, if_pos (by omega)]
        · rw [if_neg h1]
          by_cases h2 : d < D'
          · rw [if_pos h2, if_pos (by omega)]
          · rw [if_neg h2, if_neg (by omega)]
    rw [this D (Nat.le_refl _), if_pos hd]

end Foxxll.DiskBench
