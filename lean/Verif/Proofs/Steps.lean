import Verif.Spec.Steps
import Verif.Proofs.AsyncSchedule

namespace Foxxll.Sched

/-! ### Counting -/

theorem countP_add {l : List Nat} {p q r : Nat → Bool} (h : ∀ i ∈ l, p i = true → q i = true ∨ r i = true) : l.countP p ≤ l.countP q + l.countP r := by
  induction l with
  | nil => simp
  | cons x l ih =>
    have := ih fun i hi => h i (List.mem_cons_of_mem _ hi)
    have hx := h x (List.mem_cons_self ..)
    simp only [List.countP_cons]
    cases hp : p x <;> cases hq : q x <;> cases hr : r x <;> simp_all <;> omega

theorem countP_mono {l : List Nat} {p q : Nat → Bool} (h : ∀ i ∈ l, p i = true → q i = true) : l.countP p ≤ l.countP q := by
  have := countP_add (l := l) (p := p) (q := q) (r := fun _ => false) fun i hi hp => .inl (h i hi hp)
  simpa using this

theorem count_range (L b : Nat) : (List.range L).countP (fun i => decide (i = b)) ≤ 1 := by
  have h : (List.range L).count b ≤ 1 := List.nodup_iff_count.1 List.nodup_range b
  have e : (List.range L).countP (fun i => decide (i = b)) = (List.range L).count b := by
    rw [List.count]
    apply List.countP_congr
    intro i _; simp
  omega

/-- Members of a list among the first `L` numbers. -/
theorem countP_mem_le (L : Nat) (l : List Nat) : (List.range L).countP (fun i => decide (i ∈ l)) ≤ l.length := by
  induction l with
  | nil => simp
  | cons a l ih =>
    have h := countP_add (l := List.range L) (p := fun i => decide (i ∈ a :: l)) (q := fun i => decide (i ∈ l)) (r := fun i => decide (i = a)) (by
      intro i _ h
      simp only [decide_eq_true_eq, List.mem_cons] at h ⊢
      exact h.symm)
    have := count_range L a
    rw [List.length_cons]
    omega

theorem countP_not (l : List Nat) (p : Nat → Bool) : l.countP p + l.countP (fun i => !p i) = l.length := by
  induction l with
  | nil => rfl
  | cons x l ih =>
    simp only [List.countP_cons, List.length_cons]
    cases p x <;> simp <;> omega

theorem countP_split (l : List Nat) (p q : Nat → Bool) : l.countP p = l.countP (fun i => p i && q i) + l.countP (fun i => p i && !q i) := by
  induction l with
  | nil => rfl
  | cons x l ih =>
    simp only [List.countP_cons]
    cases p x <;> cases q x <;> simp <;> omega

theorem countP_ge (L c : Nat) : (List.range L).countP (fun i => decide (i < c)) ≤ c := by
  have := countP_mem_le L (List.range c)
  rw [List.length_range] at this
  refine Nat.le_trans (countP_mono ?_) this
  intro i _ h
  simpa using h

theorem sum_zero (k : List Nat) : (k.map fun _ => 0).sum = 0 := by
  induction k with
  | nil => rfl
  | cons x k ih => simp only [List.map_cons, List.sum_cons, ih]

/-- Sum over the disks. -/
theorem sum_disks {l : List Nat} {disk : Nat → Nat} {n : Nat} (h : ∀ i ∈ l, disk i < n) (p : Nat → Bool) :
    ((List.range n).map fun d => l.countP fun i => decide (disk i = d) && p i).sum = l.countP p := by
  induction l with
  | nil => simp [sum_zero]
  | cons x l ih =>
    have e : ∀ d, (x :: l).countP (fun i => decide (disk i = d) && p i) = l.countP (fun i => decide (disk i = d) && p i) + (if disk x = d ∧ p x = true then 1 else 0) := by
      intro d
      rw [List.countP_cons]
      by_cases h1 : disk x = d <;> cases p x <;> simp [h1]
    have hs : ∀ (k : List Nat) (f g : Nat → Nat), (k.map fun d => f d + g d).sum = (k.map f).sum + (k.map g).sum := by
      intro k f g
      induction k with
      | nil => rfl
      | cons y k ih => simp only [List.map_cons, List.sum_cons, ih]; omega
    rw [List.map_congr_left fun d _ => e d, hs, ih fun i hi => h i (List.mem_cons_of_mem _ hi), List.countP_cons]
    congr 1
    have hx := h x (List.mem_cons_self ..)
    cases hp : p x
    · simp [sum_zero]
    · simp only [and_true, if_true]
      have : ∀ n, disk x < n → ((List.range n).map fun d => if disk x = d then 1 else 0).sum = 1 := by
        intro n
        induction n with
        | zero => intro h; omega
        | succ n ih =>
          intro h
          rw [List.range_succ, List.map_append, List.sum_append]
          by_cases e : disk x = n
          · have z : ((List.range n).map fun d => if disk x = d then 1 else 0).sum = 0 := by
              rw [List.sum_eq_zero_iff_forall_eq_nat]
              intro y hy
              obtain ⟨d, hd, rfl⟩ := List.mem_map.1 hy
              rw [List.mem_range] at hd
              rw [if_neg (by omega)]
            rw [z]; simp [e]
          · rw [ih (by omega)]; simp [e]
      rw [this n hx]

theorem sum_mono {k : List Nat} {f g : Nat → Nat} (h : ∀ d, f d ≤ g d) : (k.map f).sum ≤ (k.map g).sum := by
  induction k with
  | nil => exact Nat.le_refl _
  | cons x k ih => simp only [List.map_cons, List.sum_cons]; have := h x; omega

/-! ### The lower bound -/

/-- Blocks on disk `d` that are not done. -/
def left (disk : Nat → Nat) (L : Nat) (done : List Nat) (d : Nat) : Nat := (List.range L).countP fun i => decide (disk i = d) && decide (i ∉ done)

theorem not_consumed {L : Nat} {done : List Nat} {i : Nat} (hi : i < L) (h : i ∉ done) : consumed L done ≤ i := by
  unfold consumed
  have e : List.range L = List.range i ++ (i :: (List.range (L - i - 1)).map (· + (i + 1))) := by
    have e1 : L = i + (1 + (L - i - 1)) := by omega
    rw [e1, List.range_add, List.range_add]
    simp
    intro a _; omega
  rw [e, List.takeWhile_append]
  split
  · rw [List.length_append, List.takeWhile_cons]
    simp [h]
  · have := (List.takeWhile_sublist (l := List.range i) fun i => decide (i ∈ done)).length_le
    rw [List.length_range] at this
    exact this

theorem first_missing {L : Nat} {done : List Nat} (h : consumed L done < L) : consumed L done ∉ done := by
  intro hm
  unfold consumed at h hm
  have e := List.takeWhile_append_dropWhile (p := fun i => decide (i ∈ done)) (l := List.range L)
  generalize ht : (List.range L).takeWhile (fun i => decide (i ∈ done)) = t at h hm e
  cases hd : (List.range L).dropWhile (fun i => decide (i ∈ done)) with
  | nil =>
    rw [hd, List.append_nil] at e
    rw [e, List.length_range] at h
    omega
  | cons x r =>
    have hx : ¬ decide (x ∈ done) = true := by
      have := List.head_dropWhile_not (fun i => decide (i ∈ done)) (l := List.range L) (by rw [hd]; simp)
      simpa [hd] using this
    rw [hd] at e
    have e2 : (List.range L)[t.length]? = some x := by rw [← e]; simp
    rw [List.getElem?_range h] at e2
    injection e2 with e2
    rw [e2] at hm
    simp [hm] at hx

theorem lastOn_mono {disk : Nat → Nat} {L d a b : Nat} (h : a ≤ b) : lastOn disk L d a ≤ lastOn disk L d b := by
  apply countP_mono
  intro i _ hi
  simp only [decide_eq_true_eq] at hi ⊢
  exact ⟨hi.1, by omega⟩

theorem lower {disk : Nat → Nat} {L n m T : Nat} (hn : ∀ i, i < L → disk i < n) {S : Nat → List Nat}
    (hT : ∀ i, i < L → i ∈ S T) (h1 : ∀ s, s < T → ∀ d, left disk L (S s) d ≤ left disk L (S (s + 1)) d + 1)
    (h2 : ∀ s, s < T → L ≤ consumed L (S s) + m + (List.range L).countP (fun i => decide (i ∉ S (s + 1)))) :
    ∀ t, t ≤ T → ∀ d, left disk L (S (T - t)) d ≤ queued disk L n m t d := by
  intro t
  induction t with
  | zero =>
    intro _ d
    have : left disk L (S T) d = 0 := by
      unfold left
      rw [List.countP_eq_zero]
      intro i hi
      have := hT i (List.mem_range.1 hi)
      simp [this]
    rw [Nat.sub_zero, this]; exact Nat.zero_le _
  | succ t ih =>
    intro ht d
    have ih := ih (by omega)
    have hs : T - (t + 1) < T := by omega
    have e : T - (t + 1) + 1 = T - t := by omega
    rw [queued]
    have a1 := h1 _ hs d
    rw [e] at a1
    have a2 := h2 _ hs
    rw [e] at a2
    refine Nat.le_min.2 ⟨Nat.le_trans a1 (Nat.add_le_add_right (ih d) 1), ?_⟩
    have hsum : (List.range L).countP (fun i => decide (i ∉ S (T - t))) ≤ ((List.range n).map (queued disk L n m t)).sum := by
      rw [← sum_disks (l := List.range L) (disk := disk) (n := n) fun i hi => hn i (List.mem_range.1 hi)]
      exact sum_mono ih
    apply countP_mono
    intro i hi hp
    simp only [Bool.and_eq_true, decide_eq_true_eq] at hp ⊢
    have := not_consumed (List.mem_range.1 hi) hp.2
    exact ⟨hp.1, by omega⟩

/-! ### Executions -/

theorem consumed_mono {L : Nat} {a b : List Nat} (h : ∀ i ∈ a, i ∈ b) : consumed L a ≤ consumed L b := by
  unfold consumed
  generalize List.range L = l
  induction l with
  | nil => exact Nat.le_refl _
  | cons x l ih =>
    rw [List.takeWhile_cons, List.takeWhile_cons]
    by_cases hx : x ∈ a
    · simp only [hx, h x hx, decide_true, if_true, List.length_cons]; omega
    · simp [hx]

theorem consumed_mem {L : Nat} {done : List Nat} {i : Nat} (h : i < consumed L done) : i ∈ done := by
  have hl : consumed L done ≤ L := by
    have := (List.takeWhile_sublist (l := List.range L) fun i => decide (i ∈ done)).length_le
    rw [List.length_range] at this
    exact this
  apply Decidable.byContradiction
  intro hi
  have := not_consumed (L := L) (by omega) hi
  omega

section
variable {disk : Nat → Nat} {order : List Nat} {m : Nat}

theorem fetched_succ (n : Nat) : ∀ b ∈ fetched disk order m n, b ∈ fetched disk order m (n + 1) := by
  intro b hb
  exact List.mem_append_left _ hb

theorem fetched_mono {n k : Nat} (h : n ≤ k) : ∀ b ∈ fetched disk order m n, b ∈ fetched disk order m k := by
  induction h with
  | refl => exact fun _ h => h
  | step _ ih => exact fun b hb => fetched_succ _ b (ih b hb)

theorem mem_pending {done : List Nat} {b : Nat} : b ∈ pending order m done ↔ b ∈ order.take (consumed order.length done + m) ∧ b ∉ done := by
  unfold pending
  rw [List.mem_filter]; simp

theorem mem_fetched {n b : Nat} (h : b ∈ fetched disk order m (n + 1)) (h' : b ∉ fetched disk order m n) :
    b ∈ pending order m (fetched disk order m n) ∧ (pending order m (fetched disk order m n)).find? (fun c => disk c == disk b) = some b := by
  rcases List.mem_append.1 h with h | h
  · exact absurd h h'
  · rw [List.mem_filter] at h
    simpa using h

theorem fetched_posted (n : Nat) : ∀ b ∈ fetched disk order m (n + 1), b ∈ order.take (consumed order.length (fetched disk order m n) + m) := by
  induction n with
  | zero =>
    intro b hb
    exact (mem_pending.1 (mem_fetched hb (by simp [fetched])).1).1
  | succ n ih =>
    intro b hb
    by_cases h : b ∈ fetched disk order m (n + 1)
    · have h1 := ih b h
      have h2 := consumed_mono (L := order.length) (fetched_succ (disk := disk) (order := order) (m := m) n)
      exact (List.take_sublist_take_left (Nat.add_le_add_right h2 m)).subset h1
    · exact (mem_pending.1 (mem_fetched hb h).1).1

/-- No order is faster than queued writing. -/
theorem finishes_lower {L nd n : Nat} (hn : ∀ i, i < L → disk i < nd) (hp : order.Perm (List.range L)) (hf : Finishes disk order m n) :
    ∀ d, lastOn disk L d L ≤ queued disk L nd m n d := by
  have hl : order.length = L := by rw [hp.length_eq, List.length_range]
  intro d
  have := lower (disk := disk) (L := L) (n := nd) (m := m) (T := n) hn (S := fetched disk order m)
    (fun i hi => hf i (hp.mem_iff.2 (List.mem_range.2 hi)))
    (by
      intro s _ d
      unfold left
      by_cases hx : ∃ b, disk b = d ∧ b ∈ fetched disk order m (s + 1) ∧ b ∉ fetched disk order m s
      · obtain ⟨b, hb, hb1, hb2⟩ := hx
        have h := countP_add (l := List.range L) (p := fun i => decide (disk i = d) && decide (i ∉ fetched disk order m s))
          (q := fun i => decide (disk i = d) && decide (i ∉ fetched disk order m (s + 1))) (r := fun i => decide (i = b)) (by
          intro i _ hi
          simp only [Bool.and_eq_true, decide_eq_true_eq] at hi ⊢
          by_cases h : i ∈ fetched disk order m (s + 1)
          · right
            have e1 := (mem_fetched h hi.2).2
            have e2 := (mem_fetched hb1 hb2).2
            rw [hi.1] at e1
            rw [hb, e1] at e2
            exact Option.some.inj e2
          · exact .inl ⟨hi.1, h⟩)
        have := count_range L b
        omega
      · refine Nat.le_trans (countP_mono ?_) (Nat.le_add_right _ 1)
        intro i _ hi
        simp only [Bool.and_eq_true, decide_eq_true_eq] at hi ⊢
        exact ⟨hi.1, fun h => hx ⟨i, hi.1, h, hi.2⟩⟩)
    (by
      intro s _
      have h1 := countP_not (List.range L) fun i => decide (i ∈ fetched disk order m (s + 1))
      rw [List.length_range] at h1
      have h2 : (List.range L).countP (fun i => !decide (i ∈ fetched disk order m (s + 1))) = (List.range L).countP (fun i => decide (i ∉ fetched disk order m (s + 1))) := by
        apply List.countP_congr; intro i _; simp
      rw [h2] at h1
      have h3 : (List.range L).countP (fun i => decide (i ∈ fetched disk order m (s + 1))) ≤ consumed L (fetched disk order m s) + m := by
        have h4 := countP_mem_le L (order.take (consumed order.length (fetched disk order m s) + m))
        have h5 := countP_mono (l := List.range L) (p := fun i => decide (i ∈ fetched disk order m (s + 1)))
          (q := fun i => decide (i ∈ order.take (consumed order.length (fetched disk order m s) + m))) (by
          intro i _ hi
          simp only [decide_eq_true_eq] at hi ⊢
          exact fetched_posted s i hi)
        rw [List.length_take] at h4
        rw [hl] at h4 h5
        omega
      omega)
    n (Nat.le_refl _) d
  refine Nat.le_trans ?_ this
  rw [Nat.sub_self]
  apply countP_mono
  intro i _ hi
  simp only [decide_eq_true_eq, Bool.and_eq_true] at hi ⊢
  exact ⟨hi.1, by simp [fetched]⟩

/-! ### Fetch times -/

/-- Steps in which blocks can be fetched with `m` buffers: one block per disk and step; block `i` has a buffer from the
step in which it is fetched up to the step in which it and all in front of it are fetched. -/
structure Times (disk : Nat → Nat) (L m : Nat) (f : Nat → Nat) : Prop where
  pos : ∀ i, i < L → 1 ≤ f i
  disk : ∀ i j, i < L → j < L → disk i = disk j → f i = f j → i = j
  buffers : ∀ s, (List.range L).countP (fun i => decide (f i ≤ s ∧ ∃ j, j < L ∧ j ≤ i ∧ s ≤ f j)) ≤ m

theorem nodup_countP {l : List Nat} {L : Nat} (hn : l.Nodup) {p : Nat → Bool} (h : ∀ i ∈ l, i < L ∧ p i = true) : l.length ≤ (List.range L).countP p := by
  induction L generalizing l with
  | zero =>
    cases l with
    | nil => simp
    | cons x l => have := (h x (List.mem_cons_self ..)).1; omega
  | succ L ih =>
    rw [List.range_succ, List.countP_append]
    have h1 : (l.erase L).length ≤ (List.range L).countP p := by
      apply ih (hn.erase L)
      intro i hi
      have h2 := h i (List.mem_of_mem_erase hi)
      have h3 : i ≠ L := by rintro rfl; exact (hn.not_mem_erase) hi
      exact ⟨by omega, h2.2⟩
    by_cases hL : L ∈ l
    · have h4 := List.length_erase_of_mem hL
      have h5 := (h L hL).2
      have h6 := List.length_pos_of_mem hL
      simp only [List.countP_cons, List.countP_nil, h5, if_true]
      omega
    · rw [List.erase_of_not_mem hL] at h1
      omega

theorem exec_times {L : Nat} {f : Nat → Nat} (ht : Times disk L m f) (hp : order.Perm (List.range L)) (hs : order.Pairwise fun a b => f a ≤ f b) :
    ∀ s i, i < L → f i ≤ s → i ∈ fetched disk order m s := by
  have hl : order.length = L := by rw [hp.length_eq, List.length_range]
  have hnd : order.Nodup := hp.nodup_iff.2 List.nodup_range
  intro s
  induction s with
  | zero => intro i hi h; have := ht.pos i hi; omega
  | succ s ih =>
    intro b hb hfb
    by_cases hd : b ∈ fetched disk order m s
    · exact fetched_succ s b hd
    have hfs : f b = s + 1 := by
      rcases Nat.lt_or_ge (f b) (s + 1) with h | h
      · exact absurd (ih b hb (by omega)) hd
      · omega
    have hbo : b ∈ order := hp.mem_iff.2 (List.mem_range.2 hb)
    have hpost : b ∈ order.take (consumed order.length (fetched disk order m s) + m) := by
      obtain ⟨as, bs, e⟩ := List.append_of_mem hbo
      have hlen : as.length + 1 ≤ consumed L (fetched disk order m s) + m := by
        have h1 : (as ++ [b]).length ≤ (List.range L).countP (fun i => decide (f i ≤ s + 1)) := by
          apply nodup_countP
          · rw [e] at hnd
            have : (as ++ [b] ++ bs).Nodup := by simpa using hnd
            exact (List.nodup_append.1 this).1
          · intro i hi
            have hio : i ∈ order := by rw [e]; simp at hi ⊢; rcases hi with h | h <;> simp [h]
            refine ⟨List.mem_range.1 (hp.mem_iff.1 hio), ?_⟩
            simp only [decide_eq_true_eq]
            rw [e, List.pairwise_append] at hs
            rcases List.mem_append.1 hi with h | h
            · have := hs.2.2 i h b (List.mem_cons_self ..); omega
            · rw [List.mem_singleton] at h; subst h; omega
        have h2 := countP_add (l := List.range L) (p := fun i => decide (f i ≤ s + 1)) (q := fun i => decide (i < consumed L (fetched disk order m s)))
          (r := fun i => decide (f i ≤ s + 1 ∧ ∃ j, j < L ∧ j ≤ i ∧ s + 1 ≤ f j)) (by
          intro i hi h
          simp only [decide_eq_true_eq] at h ⊢
          rcases Nat.lt_or_ge i (consumed L (fetched disk order m s)) with h1 | h1
          · exact .inl h1
          · right
            have hi := List.mem_range.1 hi
            refine ⟨h, consumed L (fetched disk order m s), by omega, h1, ?_⟩
            apply Decidable.byContradiction
            intro h3
            exact first_missing (by omega) (ih (consumed L (fetched disk order m s)) (by omega) (by omega)))
        have h3 := countP_ge L (consumed L (fetched disk order m s))
        have h4 := ht.buffers (s + 1)
        rw [List.length_append] at h1
        simp only [List.length_cons, List.length_nil] at h1
        omega
      rw [hl]
      have e' : order.take (consumed L (fetched disk order m s) + m) = as ++ (b :: bs).take (consumed L (fetched disk order m s) + m - as.length) := by
        generalize consumed L (fetched disk order m s) + m = k at hlen ⊢
        rw [e, List.take_append, List.take_of_length_le (by omega)]
      rw [e']
      have : 0 < consumed L (fetched disk order m s) + m - as.length := by omega
      obtain ⟨k, hk⟩ : ∃ k, consumed L (fetched disk order m s) + m - as.length = k + 1 := ⟨_, (Nat.succ_pred_eq_of_pos this).symm⟩
      rw [hk, List.take_succ_cons]
      simp
    have hpend : b ∈ pending order m (fetched disk order m s) := mem_pending.2 ⟨hpost, hd⟩
    apply List.mem_append_right
    rw [List.mem_filter]
    refine ⟨hpend, ?_⟩
    rw [beq_iff_eq]
    cases hx : (pending order m (fetched disk order m s)).find? (fun c => disk c == disk b) with
    | none =>
      have := List.find?_eq_none.1 hx b hpend
      simp at this
    | some x =>
      rw [List.find?_eq_some_iff_append] at hx
      obtain ⟨hxd, as, bs, e, hn⟩ := hx
      have hxp : x ∈ pending order m (fetched disk order m s) := by rw [e]; simp
      have hxL : x < L := List.mem_range.1 (hp.mem_iff.1 ((List.take_sublist _ _).subset (mem_pending.1 hxp).1))
      have hso : (pending order m (fetched disk order m s)).Pairwise fun a b => f a ≤ f b := by
        unfold pending
        exact (hs.sublist (List.take_sublist _ _)).filter _
      have hbx : f x ≤ f b := by
        rw [e] at hpend hso
        rcases List.mem_append.1 hpend with h | h
        · have := hn b h; simp at this
        · rcases List.mem_cons.1 h with rfl | h
          · exact Nat.le_refl _
          · exact (List.pairwise_cons.1 (List.pairwise_append.1 hso).2.1).1 b h
      have hxs : ¬ f x ≤ s := fun h => (mem_pending.1 hxp).2 (ih x hxL h)
      have : x = b := ht.disk x b hxL hb (by simpa using hxd) (by omega)
      rw [this]

end

end Foxxll.Sched
