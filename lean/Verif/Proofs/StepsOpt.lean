import Verif.Proofs.StepsSim

namespace Foxxll.Sched

theorem countP_split' {α : Type} {l : List α} {p q r : α → Bool} (hq : ∀ i ∈ l, q i = true → p i = true) (hr : ∀ i ∈ l, r i = true → p i = true)
    (hd : ∀ i ∈ l, q i = true → r i = true → False) : l.countP q + l.countP r ≤ l.countP p := by
  induction l with
  | nil => simp
  | cons x l ih =>
    have := ih (fun i hi => hq i (List.mem_cons_of_mem _ hi)) (fun i hi => hr i (List.mem_cons_of_mem _ hi)) (fun i hi => hd i (List.mem_cons_of_mem _ hi))
    have h1 := hq x (List.mem_cons_self ..)
    have h2 := hr x (List.mem_cons_self ..)
    have h3 := hd x (List.mem_cons_self ..)
    simp only [List.countP_cons]
    cases hp : p x <;> cases hq : q x <;> cases hr : r x <;> simp_all <;> omega

theorem nodup_countP' {l k : List Nat} (hn : l.Nodup) {p : Nat → Bool} (h : ∀ x ∈ l, x ∈ k ∧ p x = true) : l.length ≤ k.countP p := by
  induction l generalizing k with
  | nil => exact Nat.zero_le _
  | cons x l ih =>
    rw [List.nodup_cons] at hn
    obtain ⟨hx, hp⟩ := h x (List.mem_cons_self ..)
    have h1 : l.length ≤ (k.erase x).countP p := by
      apply ih hn.2
      intro y hy
      obtain ⟨a, b⟩ := h y (List.mem_cons_of_mem _ hy)
      have : y ≠ x := by rintro rfl; exact hn.1 hy
      exact ⟨(List.mem_erase_of_ne this).2 a, b⟩
    rw [(List.perm_cons_erase hx).countP_eq p, List.countP_cons, if_pos hp, List.length_cons]
    omega

section
variable {disks : List (Option Nat)} {D m k : Nat}

theorem log_perm {L : Nat} {log : List (Nat × Nat)} (hg : GoodLog L m log) : log.Perm ((List.range L).map fun b => (b, timeOf log b)) := by
  have e : log = (log.map (·.1)).map fun b => (b, timeOf log b) := by
    rw [List.map_map]
    conv => lhs; rw [← List.map_id log]
    apply List.map_congr_left
    intro p hp
    show p = (p.1, timeOf log p.1)
    rw [← mem_log_time hg hp]
  have := hg.perm.map fun b => (b, timeOf log b)
  rwa [← e] at this

theorem log_countP {L : Nat} {log : List (Nat × Nat)} (hg : GoodLog L m log) (p : Nat × Nat → Bool) :
    log.countP p = (List.range L).countP fun b => p (b, timeOf log b) := by
  rw [(log_perm hg).countP_eq p, List.countP_map]; rfl

/-- The simulated times, reversed, are possible fetch times. -/
theorem sim_times {s : Sim} (hi : Inv disks D m s) (ht : InvT disks D m s) (hg : GoodLog disks.length m s.log) :
    Times (dk disks D) disks.length m (fun i => s.oldtime + 1 - timeOf s.log i) ∧ ∀ i, i < disks.length → s.oldtime + 1 - timeOf s.log i ≤ s.oldtime := by
  have hmem : ∀ i, i < disks.length → (i, timeOf s.log i) ∈ s.log := fun i h => (find_log hg h).2
  have hpos : ∀ i, i < disks.length → 1 ≤ timeOf s.log i := fun i h => ht.pos (i, timeOf s.log i) (hmem i h)
  have hle : ∀ i, i < disks.length → timeOf s.log i ≤ s.oldtime := fun i h => hi.logt.2 (i, timeOf s.log i) (hmem i h)
  refine ⟨⟨?_, ?_, ?_⟩, ?_⟩
  · intro i h; have := hle i h; omega
  · intro i j h1 h2 hd he
    have a := hle i h1; have b := hle j h2
    have := ht.d1 _ (hmem i h1) _ (hmem j h2) (by simp only; omega) hd
    exact congrArg Prod.fst this
  · intro u
    by_cases hu : u = 0 ∨ s.oldtime < u
    · have : (List.range disks.length).countP (fun i => decide (s.oldtime + 1 - timeOf s.log i ≤ u ∧ ∃ j, j < disks.length ∧ j ≤ i ∧ u ≤ s.oldtime + 1 - timeOf s.log j)) = 0 := by
        rw [List.countP_eq_zero]
        intro i h
        simp only [decide_eq_true_eq]
        rintro ⟨h1, j, hj, _, h2⟩
        have := hle i (List.mem_range.1 h)
        have := hpos j hj
        omega
      omega
    · obtain ⟨p, hp, hpt⟩ := ht.all (s.oldtime + 1 - u) (by omega) (by omega)
      obtain ⟨i0, h1, h2⟩ := ht.w p hp
      rw [log_countP hg] at h1
      have h3 := countP_disjoint (l := List.range disks.length) (p := fun i => decide (i0 ≤ i))
        (q := fun i => decide (s.oldtime + 1 - timeOf s.log i ≤ u ∧ ∃ j, j < disks.length ∧ j ≤ i ∧ u ≤ s.oldtime + 1 - timeOf s.log j))
        (r := fun b => decide (timeOf s.log b < p.2))
        (by
          intro i _ h
          simp only [decide_eq_true_eq] at h ⊢
          obtain ⟨_, j, hj, hji, hju⟩ := h
          have := hle j hj
          have := h2 _ (hmem j hj) (by simp only; omega)
          simp only at this
          omega)
        (by
          intro i hi h
          simp only [decide_eq_true_eq] at h ⊢
          exact h2 _ (hmem i (List.mem_range.1 hi)) (by simp only; omega))
        (by
          intro i hi h h'
          simp only [decide_eq_true_eq] at h h'
          omega)
      have h4 := countP_not (List.range disks.length) fun i => decide (i0 ≤ i)
      rw [List.length_range] at h4
      have h5 : (List.range (min i0 disks.length)).length ≤ (List.range disks.length).countP (fun i => !decide (i0 ≤ i)) := by
        apply nodup_countP List.nodup_range
        intro i hi
        have := List.mem_range.1 hi
        refine ⟨by omega, ?_⟩
        simp only [Bool.not_eq_true', decide_eq_false_iff_not]; omega
      rw [List.length_range] at h5
      simp only at h1
      omega
  · intro i h; have := hpos i h; omega

/-! ### Buffers kept -/

/-- Queued writing is not ahead of the simulation. -/
structure InvQ (disks : List (Option Nat)) (D k : Nat) (s : Sim) : Prop where
  q : ∀ t, t < s.oldtime → ∀ d, queued (dk disks D) disks.length (D + 1) k t d ≤ s.log.countP (fun p => decide (dk disks D p.1 = d) && decide (p.2 ≤ t))
  qc : ∀ d, queued (dk disks D) disks.length (D + 1) k s.oldtime d ≤
    s.log.countP (fun p => decide (dk disks D p.1 = d)) + s.events.countP (fun e => decide (e.1 ≤ s.oldtime) && decide (dk disks D e.2 = d))

theorem InvQ.ext {t : Nat} {s s' : Sim} (h : InvQ disks D k s) (e : Ext disks D t s s') : InvQ disks D k s' := by
  obtain ⟨el, eo, h1 | ⟨j, hb, he, hb'⟩⟩ := e
  · constructor
    · rw [el, eo]; exact h.q
    · rw [el, eo, h1.1]; exact h.qc
  · constructor
    · rw [el, eo]; exact h.q
    · rw [el, eo, he]
      intro d
      refine Nat.le_trans (h.qc d) ?_
      rw [List.countP_append]
      omega

theorem InvQ.pop {s : Sim} (ha : AllOk disks D) (hi : Inv disks D m s) (h : InvQ disks D k s) (hf : s.i = 0 ∨ s.i + k + s.log.length ≤ disks.length) {cur : Event} {rest : List Event}
    (hcur : cur ∈ s.events) (hmin : ∀ e ∈ s.events, cur.1 ≤ e.1) (hrest : rest = s.events.erase cur) : InvQ disks D k (popped s cur rest) := by
  have hperm : s.events.Perm (cur :: rest) := by rw [hrest]; exact List.perm_cons_erase hcur
  have hct := hi.times cur hcur
  have hmv : ∀ d, (s.log ++ [(cur.2, cur.1)]).countP (fun p => decide (dk disks D p.1 = d)) + rest.countP (fun e => decide (e.1 ≤ cur.1) && decide (dk disks D e.2 = d)) =
      s.log.countP (fun p => decide (dk disks D p.1 = d)) + s.events.countP (fun e => decide (e.1 ≤ cur.1) && decide (dk disks D e.2 = d)) := by
    intro d
    rw [hperm.countP_eq, List.countP_append, List.countP_cons]
    simp only [List.countP_cons, List.countP_nil, Nat.le_refl, decide_true, Bool.true_and]
    omega
  by_cases ht : s.oldtime = cur.1
  · constructor
    · intro t h1 d
      simp only [popped] at h1 ⊢
      refine Nat.le_trans (h.q t (by omega) d) ?_
      rw [List.countP_append]; omega
    · intro d
      refine Nat.le_trans ?_ (Nat.le_of_eq (hmv d).symm)
      show queued _ _ _ _ cur.1 d ≤ _
      rw [← ht]
      exact h.qc d
  · have hnew : cur.1 = s.oldtime + 1 := by omega
    have hq0 : ∀ d, queued (dk disks D) disks.length (D + 1) k s.oldtime d ≤ s.log.countP (fun p => decide (dk disks D p.1 = d)) := by
      intro d
      have h1 := h.qc d
      have h2 : s.events.countP (fun e => decide (e.1 ≤ s.oldtime) && decide (dk disks D e.2 = d)) = 0 := by
        rw [List.countP_eq_zero]
        intro e he
        have := hmin e he
        simp only [Bool.and_eq_true, decide_eq_true_eq]
        omega
      omega
    constructor
    · intro t h1 d
      simp only [popped] at h1 ⊢
      rw [List.countP_append]
      by_cases ht' : t < s.oldtime
      · exact Nat.le_trans (h.q t ht' d) (Nat.le_add_right _ _)
      · have : t = s.oldtime := by omega
        subst this
        refine Nat.le_trans (hq0 d) (Nat.le_trans (Nat.le_of_eq ?_) (Nat.le_add_right _ _))
        apply List.countP_congr
        intro p hp
        have := hi.logt.2 p hp
        simp [this]
    · intro d
      refine Nat.le_trans ?_ (Nat.le_of_eq (hmv d).symm)
      show queued _ _ _ _ cur.1 d ≤ _
      rw [hnew, queued]
      by_cases he : ∃ e ∈ s.events, dk disks D e.2 = d
      · obtain ⟨e, he, hd⟩ := he
        have h1 : 0 < s.events.countP (fun e => decide (e.1 ≤ s.oldtime + 1) && decide (dk disks D e.2 = d)) := by
          refine List.countP_pos_iff.2 ⟨e, he, ?_⟩
          have := hi.times e he
          simp only [Bool.and_eq_true, decide_eq_true_eq]
          exact ⟨by omega, hd⟩
        have := hq0 d
        omega
      · have hqd : s.queues d = [] := by
          by_cases hq : s.queues d = []
          · exact hq
          · exact absurd (hi.qev d hq) he
        refine Nat.le_trans (Nat.min_le_right _ _) (Nat.le_trans ?_ (Nat.le_add_right _ _))
        have hsum : ((List.range (D + 1)).map (queued (dk disks D) disks.length (D + 1) k s.oldtime)).sum ≤ s.log.length := by
          have h1 := sum_disks (l := s.log.map (·.1)) (disk := dk disks D) (n := D + 1) (by
            intro i h'
            have h2 := (log_nodup hi).2 i h'
            have := (ha i h2).2
            omega) (fun _ => true)
          simp only [Bool.and_true, List.countP_true, List.length_map] at h1
          rw [← h1]
          apply sum_mono
          intro d
          refine Nat.le_trans (hq0 d) (Nat.le_of_eq ?_)
          rw [List.countP_map]; rfl
        have e1 : s.log.countP (fun p => decide (dk disks D p.1 = d)) = (s.log.map (·.1)).countP (fun b => decide (dk disks D b = d)) := by
          rw [List.countP_map]; rfl
        rw [e1]
        unfold lastOn
        rw [List.countP_eq_length_filter]
        apply nodup_countP'
        · exact List.Pairwise.filter _ List.nodup_range
        · intro i h'
          rw [List.mem_filter] at h'
          obtain ⟨h1, h2⟩ := h'
          simp only [decide_eq_true_eq, List.mem_range] at h1 h2
          have h3 := hi.cnt i
          rw [h2.1, hqd, if_pos ⟨by omega, h1⟩] at h3
          have h4 : evc s.events i = 0 := by
            unfold evc
            rw [List.count_eq_zero]
            intro h5
            obtain ⟨e, he', e2⟩ := List.mem_map.1 h5
            exact he ⟨e, he', by rw [e2]; exact h2.1⟩
          rw [h4] at h3
          simp only [List.count_nil, Nat.add_zero] at h3
          refine ⟨List.count_pos_iff.1 (by omega), by simpa using h2.1⟩

theorem InvQ.iter {s s' : Sim} (ha : AllOk disks D) (hi : Inv disks D m s) (h : InvQ disks D k s) (hf : s.i = 0 ∨ s.i + k + s.log.length ≤ disks.length) {c : Nat} {cur : Event} {rest : List Event}
    (hp : popMin c s.events = some (cur, rest)) (hit : iter disks D s cur rest = some s') : InvQ disks D k s' := by
  obtain ⟨h1, h2, h3⟩ := popMin_some hp
  obtain ⟨s2, e1, e2⟩ := iter_ext hi.qd hit
  have g := (h.pop ha hi hf h1 h2 h3).ext (t := cur.1) e1
  exact g.ext (t := cur.1) e2

theorem start_invQ {busy0 : Nat → Bool} {s : Sim} (hs : start disks m D busy0 = some s) : InvQ disks D k s := by
  unfold start at hs
  split at hs
  · cases hs
  · injection hs with hs
    subst hs
    exact ⟨fun t h => absurd h (Nat.not_lt_zero t), fun d => Nat.zero_le _⟩

/-! ### The simulation -/

theorem dk_diskOf (h : ∀ d, some d ∈ disks → d ≤ D) : dk disks D = diskOf disks D := by
  funext i
  unfold dk getDisk diskOf
  cases hi : disks[i]? with
  | none => rfl
  | some x =>
    cases x with
    | none => rfl
    | some d =>
      have : some d ∈ disks := List.mem_of_getElem? hi
      simp only [if_pos (h d this), Option.getD_some]

/-- The end of the simulation. -/
theorem sim_end (ha : AllOk disks D) (hm : 0 < m) (hL : D ≤ disks.length) (busy0 : Nat → Bool) (choice : Nat → Nat) :
    ∃ s, simulate disks m D busy0 choice = .done s.log ∧ GoodLog disks.length m s.log ∧ Inv disks D m s ∧ InvT disks D m s ∧ s.events = [] ∧
      (Keeps disks m D busy0 choice k → InvQ disks D k s) := by
  obtain ⟨s, hs, hi⟩ := start_inv ha m hm busy0
  obtain ⟨log, hg1, hg2⟩ := simulate_good ha m hm hL busy0 choice
  obtain ⟨s', e1, e2, e3, e4⟩ := loop_final ha m choice
    (fun s => InvT disks D m s ∧ Visited disks m D busy0 choice s ∧ (Keeps disks m D busy0 choice k → InvQ disks D k s))
    (by
      rintro s cur rest s' hi ⟨h1, h2, h3⟩ hp hit
      exact ⟨h1.iter hi hp hit, .next h2 hp hit, fun hn => (h3 hn).iter ha hi (hn s h2) hp hit⟩)
    (disks.length + 1) s hi ⟨start_invT ha hs, .start hs, fun _ => start_invQ hs⟩ (by omega)
  have e5 : simulate disks m D busy0 choice = .done s'.log := by
    unfold simulate
    rw [if_neg (by omega), hs]
    exact e1
  rw [hg1] at e5
  injection e5 with e5
  subst e5
  exact ⟨s', hg1, hg2, e2, e3.1, e4, e3.2.2⟩

theorem sim_finishes {s : Sim} (hi : Inv disks D m s) (ht : InvT disks D m s) (hg : GoodLog disks.length m s.log) :
    Finishes (dk disks D) ((sorted disks.length s.log).map (·.1)) m s.oldtime := by
  obtain ⟨h1, h2⟩ := sim_times hi ht hg
  apply sorted_finishes h1 h2 (sorted_perm hg)
  rw [List.pairwise_map]
  have h3 : (sorted disks.length s.log).Pairwise fun a b => decide (a.2 ≥ b.2) = true := List.pairwise_mergeSort le_trans' le_total' _
  have hmem : ∀ x ∈ sorted disks.length s.log, x.2 = timeOf s.log x.1 := by
    intro x hx
    have : x ∈ writeOrder disks.length s.log := (List.mergeSort_perm _ _).mem_iff.1 hx
    rw [writeOrder_eq hg] at this
    obtain ⟨y, hy, rfl⟩ := List.mem_map.1 this
    rfl
  refine List.Pairwise.imp_of_mem ?_ h3
  intro a b ha hb h
  simp only [decide_eq_true_eq] at h
  rw [hmem a ha, hmem b hb] at h
  omega

theorem keeps_best {s : Sim} (ha : AllOk disks D) (ht : InvT disks D m s) (hg : GoodLog disks.length m s.log) (hq : InvQ disks D k s)
    {order : List Nat} (hp : order.Perm (List.range disks.length)) {n : Nat} (hf : Finishes (dk disks D) order k n) : s.oldtime ≤ n := by
  apply Decidable.byContradiction
  intro hn
  have hlow := finishes_lower (disk := dk disks D) (order := order) (m := k) (L := disks.length) (nd := D + 1) (n := n)
    (fun i hi => by have := (ha i hi).2; omega) hp hf
  obtain ⟨p, hp', e⟩ := ht.all s.oldtime (by omega) (Nat.le_refl _)
  have h1 := Nat.le_trans (hlow (dk disks D p.1)) (hq.q n (by omega) (dk disks D p.1))
  have h2 := countP_split' (l := s.log) (p := fun p' => decide (dk disks D p'.1 = dk disks D p.1)) (q := fun p' => decide (dk disks D p'.1 = dk disks D p.1) && decide (p'.2 ≤ n))
    (r := fun p' => decide (p' = p)) (by intro i _ h; simp only [Bool.and_eq_true] at h; exact h.1) (by intro i _ h; simp only [decide_eq_true_eq] at h; subst h; simp)
    (by
      intro i _ h h'
      simp only [Bool.and_eq_true, decide_eq_true_eq] at h h'
      subst h'; omega)
  have h3 : 0 < s.log.countP fun p' => decide (p' = p) := List.countP_pos_iff.2 ⟨p, hp', by simp⟩
  have h4 := log_countP hg fun p' => decide (dk disks D p'.1 = dk disks D p.1)
  have h5 : lastOn (dk disks D) disks.length (dk disks D p.1) disks.length = (List.range disks.length).countP fun b => decide (dk disks D b = dk disks D p.1) := by
    unfold lastOn
    apply List.countP_congr
    intro i _
    simp
  simp only at h4
  omega

/-! ### Visited states -/

theorem visited_inv {busy0 : Nat → Bool} {choice : Nat → Nat} (ha : AllOk disks D) (hm : 0 < m) {s : Sim} (h : Visited disks m D busy0 choice s) : Inv disks D m s := by
  induction h with
  | start hs =>
    obtain ⟨s', h1, h2⟩ := start_inv ha m hm busy0
    rw [hs] at h1
    injection h1 with h1
    subst h1
    exact h2
  | next _ hp hit ih =>
    obtain ⟨h1, h2, h3⟩ := popMin_some hp
    obtain ⟨s', h4, h5, _⟩ := iter_inv ha m _ ih _ _ h1 h2 h3
    rw [hit] at h4
    injection h4 with h4
    subst h4
    exact h5

theorem advance_i {t : Nat} {s s' : Sim} (h : advance disks D t s = some s') : s'.i ≤ s.i := by
  unfold advance at h
  split at h
  · injection h with h; subst h; exact Nat.le_refl _
  · rename_i i hi
    split at h
    · cases h
    · split at h
      · injection h with h; subst h; simp only; omega
      · split at h
        · injection h with h; subst h; exact Nat.le_refl _
        · injection h with h; subst h; simp only; omega

theorem refill_i {t b : Nat} {s s' : Sim} (h : refill disks D t b s = some s') : s'.i = s.i := by
  unfold refill at h
  split at h
  · cases h
  · split at h
    · injection h with h; subst h; rfl
    · split at h <;> (injection h with h; subst h; rfl)

theorem iter_i {s s' : Sim} {cur : Event} {rest : List Event} (h : iter disks D s cur rest = some s') : s'.i ≤ s.i := by
  unfold iter at h
  simp only at h
  split at h
  · cases h
  · rename_i s2 h2
    have := advance_i h2
    rw [refill_i h]
    exact this

theorem start_i {busy0 : Nat → Bool} {s : Sim} (ha : AllOk disks D) (hs : start disks m D busy0 = some s) : s.i = disks.length - m := by
  obtain ⟨q, hf, _⟩ := fill_spec ha m disks.length (fun _ => []) (Nat.le_refl _)
  simp only [start, hf] at hs
  injection hs with hs
  subst hs
  rfl

theorem start_log {busy0 : Nat → Bool} {s : Sim} (hs : start disks m D busy0 = some s) : s.log = [] := by
  unfold start at hs
  split at hs
  · cases hs
  · injection hs with hs; subst hs; rfl

theorem visited_zero {busy0 : Nat → Bool} {choice : Nat → Nat} (ha : AllOk disks D) (hL : disks.length ≤ m) {s : Sim}
    (h : Visited disks m D busy0 choice s) : s.i = 0 := by
  induction h with
  | start hs => have := start_i ha hs; omega
  | next _ _ hit ih => have := iter_i hit; omega

/-- The state after `n` iterations. -/
def stateAt (disks : List (Option Nat)) (m D : Nat) (busy0 : Nat → Bool) (choice : Nat → Nat) : Nat → Option Sim
  | 0 => start disks m D busy0
  | n + 1 => (stateAt disks m D busy0 choice n).bind fun s => (popMin (choice s.log.length) s.events).bind fun p => iter disks D s p.1 p.2

theorem visited_at {busy0 : Nat → Bool} {choice : Nat → Nat} (ha : AllOk disks D) (hm : 0 < m) {s : Sim} (h : Visited disks m D busy0 choice s) :
    stateAt disks m D busy0 choice s.log.length = some s := by
  induction h with
  | start hs =>
    rw [start_log hs]
    exact hs
  | next hv hp hit ih =>
    obtain ⟨h1, h2, h3⟩ := popMin_some hp
    obtain ⟨s', h4, _, h5⟩ := iter_inv ha m _ (visited_inv ha hm hv) _ _ h1 h2 h3
    rw [hit] at h4
    injection h4 with h4
    subst h4
    rw [h5, List.length_append, List.length_singleton, stateAt, ih]
    simp only [Option.bind_some, hp]
    exact hit

/-- Checking the states of a run. -/
theorem keeps_of {busy0 : Nat → Bool} {choice : Nat → Nat} (ha : AllOk disks D) (hm : 0 < m)
    (h : ∀ n, n ≤ disks.length → (stateAt disks m D busy0 choice n).all (fun s => decide (s.i = 0 ∨ s.i + k + s.log.length ≤ disks.length)) = true) :
    Keeps disks m D busy0 choice k := by
  intro s hs
  have h1 := visited_at ha hm hs
  have h2 : s.log.length ≤ disks.length := by
    obtain ⟨a, b⟩ := log_nodup (visited_inv ha hm hs)
    have := nodup_countP' (l := s.log.map (·.1)) (k := List.range disks.length) (p := fun _ => true) a (fun x hx => ⟨List.mem_range.2 (b x hx), rfl⟩)
    simpa using this
  have h3 := h _ h2
  rw [h1] at h3
  simpa using h3

end

end Foxxll.Sched
