import Verif.Proofs.Steps

namespace Foxxll.Sched

theorem countP_disjoint {l : List Nat} {p q r : Nat → Bool} (hq : ∀ i ∈ l, q i = true → p i = true) (hr : ∀ i ∈ l, r i = true → p i = true)
    (hd : ∀ i ∈ l, q i = true → r i = true → False) : l.countP q + l.countP r ≤ l.countP p := by
  induction l with
  | nil => simp
  | cons x l ih =>
    have := ih (fun i hi => hq i (List.mem_cons_of_mem _ hi)) (fun i hi => hr i (List.mem_cons_of_mem _ hi)) (fun i hi => hd i (List.mem_cons_of_mem _ hi))
    have h1 := hq x (List.mem_cons_self ..)
    have h2 := hr x (List.mem_cons_self ..)
    have h3 := hd x (List.mem_cons_self ..)
    simp only [List.countP_cons]
    cases hp : p x <;> cases hq : q x <;> cases hr : r x <;> simp_all <;> omega

section
variable {disk : Nat → Nat} {L n m : Nat}

theorem lastOn_le {d a : Nat} : lastOn disk L d a ≤ lastOn disk L d L := by
  apply countP_mono
  intro i _ h
  simp only [decide_eq_true_eq] at h ⊢
  exact ⟨h.1, by omega⟩

theorem queued_mono1 (t : Nat) : ∀ d, queued disk L n m t d ≤ queued disk L n m (t + 1) d := by
  induction t with
  | zero => intro d; exact Nat.zero_le _
  | succ t ih =>
    intro d
    rw [queued, queued]
    have h1 := ih d
    have h2 : lastOn disk L d (m + ((List.range n).map (queued disk L n m t)).sum) ≤ lastOn disk L d (m + ((List.range n).map (queued disk L n m (t + 1))).sum) :=
      lastOn_mono (Nat.add_le_add_left (sum_mono ih) m)
    omega

theorem queued_mono {t u : Nat} (h : t ≤ u) (d : Nat) : queued disk L n m t d ≤ queued disk L n m u d := by
  induction h with
  | refl => exact Nat.le_refl _
  | step _ ih => exact Nat.le_trans ih (queued_mono1 _ d)

/-- Blocks behind block `i` on its disk. -/
def rank (disk : Nat → Nat) (L i : Nat) : Nat := (List.range L).countP fun j => decide (disk j = disk i ∧ i < j)

theorem rank_lt {i : Nat} (hi : i < L) : rank disk L i < lastOn disk L (disk i) L := by
  have h := countP_disjoint (l := List.range L) (p := fun j => decide (disk j = disk i ∧ L ≤ j + L)) (q := fun j => decide (disk j = disk i ∧ i < j))
    (r := fun j => decide (j = i)) (by intro j _ h; simp only [decide_eq_true_eq] at h ⊢; exact ⟨h.1, by omega⟩)
    (by intro j _ h; simp only [decide_eq_true_eq] at h ⊢; subst h; exact ⟨rfl, by omega⟩)
    (by intro j _ h h'; simp only [decide_eq_true_eq] at h h'; omega)
  have h1 : 0 < (List.range L).countP fun j => decide (j = i) := List.countP_pos_iff.2 ⟨i, List.mem_range.2 hi, by simp⟩
  unfold rank lastOn
  omega

theorem rank_anti {i j : Nat} (hj : j < L) (hd : disk i = disk j) (h : i < j) : rank disk L j < rank disk L i := by
  have h0 := countP_disjoint (l := List.range L) (p := fun k => decide (disk k = disk i ∧ i < k)) (q := fun k => decide (disk k = disk j ∧ j < k))
    (r := fun k => decide (k = j)) (by intro k _ h; simp only [decide_eq_true_eq] at h ⊢; exact ⟨by rw [hd]; exact h.1, by omega⟩)
    (by intro k _ h; simp only [decide_eq_true_eq] at h ⊢; subst h; exact ⟨hd.symm, by omega⟩)
    (by intro k _ h h'; simp only [decide_eq_true_eq] at h h'; omega)
  have h1 : 0 < (List.range L).countP fun k => decide (k = j) := List.countP_pos_iff.2 ⟨j, List.mem_range.2 hj, by simp⟩
  unfold rank
  omega

theorem rank_inj {i j : Nat} (hi : i < L) (hj : j < L) (hd : disk i = disk j) (h : rank disk L i = rank disk L j) : i = j := by
  rcases Nat.lt_trichotomy i j with h1 | h1 | h1
  · have := rank_anti hj hd h1; omega
  · exact h1
  · have := rank_anti hi hd.symm h1; omega

theorem rank_last {i a : Nat} (h : rank disk L i < lastOn disk L (disk i) a) : L ≤ i + a := by
  apply Decidable.byContradiction
  intro h1
  have : lastOn disk L (disk i) a ≤ rank disk L i := by
    apply countP_mono
    intro j _ h
    simp only [decide_eq_true_eq] at h ⊢
    exact ⟨h.1, by omega⟩
  omega

theorem rank_exists {d w : Nat} : ∀ a, w < lastOn disk L d a → ∃ i, i < L ∧ disk i = d ∧ rank disk L i = w := by
  intro a
  induction a with
  | zero =>
    intro h
    have : lastOn disk L d 0 = 0 := by
      unfold lastOn
      rw [List.countP_eq_zero]
      intro i hi
      have := List.mem_range.1 hi
      simp only [decide_eq_true_eq]; omega
    omega
  | succ a ih =>
    intro h
    by_cases hw : w < lastOn disk L d a
    · exact ih hw
    by_cases ha : L ≤ a
    · have : lastOn disk L d (a + 1) ≤ lastOn disk L d a := by
        apply countP_mono
        intro i _ h
        simp only [decide_eq_true_eq] at h ⊢
        exact ⟨h.1, by omega⟩
      omega
    by_cases hd : disk (L - 1 - a) = d
    · refine ⟨L - 1 - a, by omega, hd, ?_⟩
      have e : rank disk L (L - 1 - a) = lastOn disk L d a := by
        unfold rank lastOn
        apply List.countP_congr
        intro i _
        simp only [decide_eq_true_eq, hd]
        constructor
        · rintro ⟨h1, h2⟩; exact ⟨h1, by omega⟩
        · rintro ⟨h1, h2⟩; exact ⟨h1, by omega⟩
      have h2 := countP_add (l := List.range L) (p := fun i => decide (disk i = d ∧ L ≤ i + (a + 1))) (q := fun i => decide (disk i = d ∧ L ≤ i + a))
        (r := fun i => decide (i = L - 1 - a)) (by
          intro i _ h
          simp only [decide_eq_true_eq] at h ⊢
          by_cases h3 : L ≤ i + a
          · exact .inl ⟨h.1, h3⟩
          · right; omega)
      have h3 := count_range L (L - 1 - a)
      have h4 : lastOn disk L d (a + 1) ≤ lastOn disk L d a + 1 := by unfold lastOn; omega
      omega
    · have : lastOn disk L d (a + 1) ≤ lastOn disk L d a := by
        apply countP_mono
        intro i _ h
        simp only [decide_eq_true_eq] at h ⊢
        refine ⟨h.1, ?_⟩
        apply Decidable.byContradiction
        intro h1
        have : i = L - 1 - a := by omega
        subst this
        exact hd h.1
      omega

theorem rank_count {d : Nat} : ∀ w, w ≤ lastOn disk L d L → w ≤ (List.range L).countP fun i => decide (disk i = d) && decide (rank disk L i < w) := by
  intro w
  induction w with
  | zero => intro _; exact Nat.zero_le _
  | succ w ih =>
    intro h
    have ih := ih (by omega)
    obtain ⟨i0, h1, h2, h3⟩ := rank_exists (disk := disk) (L := L) (d := d) (w := w) L (by omega)
    have h4 := countP_disjoint (l := List.range L) (p := fun i => decide (disk i = d) && decide (rank disk L i < w + 1))
      (q := fun i => decide (disk i = d) && decide (rank disk L i < w)) (r := fun i => decide (i = i0))
      (by intro i _ h; simp only [Bool.and_eq_true, decide_eq_true_eq] at h ⊢; exact ⟨h.1, by omega⟩)
      (by intro i _ h; simp only [Bool.and_eq_true, decide_eq_true_eq] at h ⊢; subst h; exact ⟨h2, by omega⟩)
      (by intro i _ h h'; simp only [Bool.and_eq_true, decide_eq_true_eq] at h h'; subst h'; omega)
    have h5 : 0 < (List.range L).countP fun i => decide (i = i0) := List.countP_pos_iff.2 ⟨i0, List.mem_range.2 h1, by simp⟩
    omega

/-- The step in which queued writing writes block `i`. -/
def wtime (disk : Nat → Nat) (L n m T i : Nat) : Nat := (List.range T).countP fun t => decide (queued disk L n m t (disk i) ≤ rank disk L i)

theorem wtime_le {T : Nat} (hT : ∀ d, lastOn disk L d L ≤ queued disk L n m T d) {i u : Nat} (hi : i < L) (hu : u ≤ T) :
    wtime disk L n m T i ≤ u ↔ rank disk L i < queued disk L n m u (disk i) := by
  constructor
  · intro h
    apply Decidable.byContradiction
    intro h1
    have h2 : u ≠ T := by
      rintro rfl
      have := rank_lt (disk := disk) hi
      have := hT (disk i)
      omega
    have h3 : (List.range (u + 1)).length ≤ (List.range T).countP fun t => decide (queued disk L n m t (disk i) ≤ rank disk L i) := by
      apply nodup_countP List.nodup_range
      intro t ht
      have ht := List.mem_range.1 ht
      refine ⟨by omega, ?_⟩
      have := queued_mono (disk := disk) (L := L) (n := n) (m := m) (t := t) (u := u) (by omega) (disk i)
      simp only [decide_eq_true_eq]; omega
    rw [List.length_range] at h3
    unfold wtime at h
    omega
  · intro h
    refine Nat.le_trans (countP_mono ?_) (countP_ge T u)
    intro t _ ht
    simp only [decide_eq_true_eq] at ht ⊢
    apply Decidable.byContradiction
    intro h1
    have := queued_mono (disk := disk) (L := L) (n := n) (m := m) (t := u) (u := t) (by omega) (disk i)
    omega

theorem wtime_times (hn : ∀ i, i < L → disk i < n) {T : Nat} (hT : ∀ d, lastOn disk L d L ≤ queued disk L n m T d) : Times disk L m (fun i => T + 1 - wtime disk L n m T i) := by
  have hle : ∀ i, i < L → wtime disk L n m T i ≤ T := by
    intro i hi
    rw [wtime_le hT hi (Nat.le_refl _)]
    exact Nat.lt_of_lt_of_le (rank_lt hi) (hT _)
  have hpos : ∀ i, i < L → 1 ≤ wtime disk L n m T i := by
    intro i hi
    have := not_congr (wtime_le hT hi (Nat.zero_le _))
    simp only [queued] at this
    omega
  constructor
  · intro i hi; have := hle i hi; omega
  · intro i j hi hj hd h
    have h1 := hle i hi; have h2 := hle j hj; have h3 := hpos i hi; have h4 := hpos j hj
    have e : wtime disk L n m T i = wtime disk L n m T j := by omega
    generalize ht : wtime disk L n m T i = t at *
    obtain ⟨u, rfl⟩ : ∃ u, t = u + 1 := ⟨t - 1, by omega⟩
    have a1 := (wtime_le hT hi (u := u + 1) (by omega)).1 (by omega)
    have a2 := (wtime_le hT hj (u := u + 1) (by omega)).1 (by omega)
    have b1 := (not_congr (wtime_le hT hi (u := u) (by omega))).1 (by omega)
    have b2 := (not_congr (wtime_le hT hj (u := u) (by omega))).1 (by omega)
    have c : queued disk L n m (u + 1) (disk i) ≤ queued disk L n m u (disk i) + 1 := by rw [queued]; omega
    rw [← hd] at a2 b2
    exact rank_inj hi hj hd (by omega)
  · intro s
    by_cases hs : s = 0 ∨ T < s
    · have : (List.range L).countP (fun i => decide (T + 1 - wtime disk L n m T i ≤ s ∧ ∃ j, j < L ∧ j ≤ i ∧ s ≤ T + 1 - wtime disk L n m T j)) = 0 := by
        rw [List.countP_eq_zero]
        intro i hi
        simp only [decide_eq_true_eq]
        rintro ⟨h1, j, hj, _, h2⟩
        have := hle i (List.mem_range.1 hi)
        have := hpos j hj
        omega
      omega
    · obtain ⟨u, hu, e⟩ : ∃ u, u < T ∧ s = T - u := ⟨T - s, by omega, by omega⟩
      have hcount := countP_disjoint (l := List.range L) (p := fun i => decide (L ≤ i + (m + ((List.range n).map (queued disk L n m u)).sum)))
        (q := fun i => decide (T + 1 - wtime disk L n m T i ≤ s ∧ ∃ j, j < L ∧ j ≤ i ∧ s ≤ T + 1 - wtime disk L n m T j))
        (r := fun i => decide (rank disk L i < queued disk L n m u (disk i)))
        (by
          intro i hi h
          simp only [decide_eq_true_eq] at h ⊢
          obtain ⟨_, j, hj, hji, h2⟩ := h
          have h3 := (wtime_le hT hj (u := u + 1) (by omega)).1 (by omega)
          rw [queued] at h3
          have := rank_last (disk := disk) (L := L) (i := j) (a := m + ((List.range n).map (queued disk L n m u)).sum) (by omega)
          omega)
        (by
          intro i hi h
          simp only [decide_eq_true_eq] at h ⊢
          have h3 := queued_mono1 (disk := disk) (L := L) (n := n) (m := m) u (disk i)
          rw [queued] at h3
          exact rank_last (disk := disk) (L := L) (i := i) (by omega))
        (by
          intro i hi h h'
          simp only [decide_eq_true_eq] at h h'
          have := (wtime_le hT (List.mem_range.1 hi) (u := u) (by omega)).2 h'
          omega)
      have hsum : ((List.range n).map (queued disk L n m u)).sum ≤ (List.range L).countP fun i => decide (rank disk L i < queued disk L n m u (disk i)) := by
        rw [← sum_disks (l := List.range L) (disk := disk) (n := n) fun i hi => hn i (List.mem_range.1 hi)]
        apply sum_mono
        intro d
        have h1 : queued disk L n m u d ≤ lastOn disk L d L := by
          cases u with
          | zero => exact Nat.zero_le _
          | succ u => rw [queued]; exact Nat.le_trans (Nat.min_le_right _ _) lastOn_le
        refine Nat.le_trans (rank_count _ h1) (countP_mono ?_)
        intro i _ h
        simp only [Bool.and_eq_true, decide_eq_true_eq] at h ⊢
        exact ⟨h.1, by rw [h.1]; exact h.2⟩
      have hall : (List.range L).countP (fun i => decide (L ≤ i + (m + ((List.range n).map (queued disk L n m u)).sum))) ≤ m + ((List.range n).map (queued disk L n m u)).sum := by
        generalize m + ((List.range n).map (queued disk L n m u)).sum = a
        have h1 := countP_not (List.range L) fun i => decide (L ≤ i + a)
        rw [List.length_range] at h1
        have h2 : (List.range (L - a)).length ≤ (List.range L).countP (fun i => !decide (L ≤ i + a)) := by
          apply nodup_countP List.nodup_range
          intro i hi
          have := List.mem_range.1 hi
          refine ⟨by omega, ?_⟩
          simp only [Bool.not_eq_true', decide_eq_false_iff_not]; omega
        rw [List.length_range] at h2
        omega
      omega

/-- An order sorted by possible fetch times takes no longer than these. -/
theorem sorted_finishes {f : Nat → Nat} (ht : Times disk L m f) {T : Nat} (hT : ∀ i, i < L → f i ≤ T) {order : List Nat} (hp : order.Perm (List.range L))
    (hs : order.Pairwise fun a b => f a ≤ f b) : Finishes disk order m T := by
  intro b hb
  have hb := List.mem_range.1 (hp.mem_iff.1 hb)
  exact exec_times ht hp hs T b hb (hT b hb)

/-- Queued writing can be attained. -/
theorem best_order (hn : ∀ i, i < L → disk i < n) {T : Nat} (hT : ∀ d, lastOn disk L d L ≤ queued disk L n m T d) :
    ∃ order : List Nat, order.Perm (List.range L) ∧ Finishes disk order m T := by
  have ht := wtime_times hn hT
  refine ⟨(List.range L).mergeSort (fun a b => decide (T + 1 - wtime disk L n m T a ≤ T + 1 - wtime disk L n m T b)), List.mergeSort_perm _ _, ?_⟩
  apply sorted_finishes ht (T := T) _ (List.mergeSort_perm _ _)
  · have := List.pairwise_mergeSort (le := fun a b => decide (T + 1 - wtime disk L n m T a ≤ T + 1 - wtime disk L n m T b))
      (by intro a b c h1 h2; simp only [decide_eq_true_eq] at *; omega) (by intro a b; simp only [Bool.or_eq_true, decide_eq_true_eq]; omega) (List.range L)
    exact this.imp fun h => by simpa using h
  · intro i hi
    have h1 : 1 ≤ wtime disk L n m T i := by
      have := not_congr (wtime_le hT hi (Nat.zero_le _))
      simp only [queued] at this
      omega
    omega

end

end Foxxll.Sched
