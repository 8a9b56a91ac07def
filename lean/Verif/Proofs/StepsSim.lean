import Verif.Proofs.StepsBest

namespace Foxxll.Sched

section
variable {disks : List (Option Nat)} {D : Nat}

theorem loop_final (h : AllOk disks D) (m : Nat) (choice : Nat → Nat) (P : Sim → Prop)
    (hstep : ∀ s cur rest s', Inv disks D m s → P s → popMin (choice s.log.length) s.events = some (cur, rest) → iter disks D s cur rest = some s' → P s') :
    ∀ (fuel : Nat) (s : Sim), Inv disks D m s → P s → disks.length + 1 ≤ fuel + s.log.length →
    ∃ s', loop disks D choice fuel s = .done s'.log ∧ Inv disks D m s' ∧ P s' ∧ s'.events = [] := by
  intro fuel
  induction fuel with
  | zero =>
    intro s hi _ hf
    have := log_nodup hi
    have := nodup_length_le this.1 this.2
    simp at this; omega
  | succ fuel ih =>
    intro s hi hP hf
    cases hp : popMin (choice s.log.length) s.events with
    | none =>
      obtain ⟨log, h1, h2⟩ := loop_good h m choice (fuel + 1) s hi hf
      refine ⟨s, ?_, hi, hP, popMin_none hp⟩
      rw [loop, hp] at h1 ⊢
      simp only at h1 ⊢
      split at h1
      · rename_i hc; rw [if_pos hc]
      · cases h1
    | some x =>
      obtain ⟨cur, rest⟩ := x
      obtain ⟨h1, h2, h3⟩ := popMin_some hp
      obtain ⟨s', hit, hinv, hlog⟩ := iter_inv h m s hi cur rest h1 h2 h3
      simp only [loop, hp, hit]
      exact ih s' hinv (hstep s cur rest s' hi hP hp hit) (by rw [hlog]; simp; omega)

/-- Nothing but new events for the next time on disks not busy. -/
def Ext (disks : List (Option Nat)) (D t : Nat) (s s' : Sim) : Prop :=
  s'.log = s.log ∧ s'.oldtime = s.oldtime ∧
  ((s'.events = s.events ∧ s'.busy = s.busy) ∨
   ∃ j, s.busy (dk disks D j) = false ∧ s'.events = s.events ++ [(t + 1, j)] ∧ s'.busy = setFn s.busy (dk disks D j) true)

/-- The state after popping. -/
def popped (s : Sim) (cur : Event) (rest : List Event) : Sim :=
  { s with events := rest,
           busy := if s.oldtime ≠ cur.1 then fun _ => false else s.busy,
           oldtime := cur.1,
           log := s.log ++ [(cur.2, cur.1)] }

theorem advance_ext {t : Nat} {s s' : Sim} (hq : ∀ d, ∀ b ∈ s.queues d, dk disks D b = d) (h : advance disks D t s = some s') :
    Ext disks D t s s' ∧ ∀ d, ∀ b ∈ s'.queues d, dk disks D b = d := by
  unfold advance at h
  split at h
  · injection h with h; subst h; exact ⟨⟨rfl, rfl, .inl ⟨rfl, rfl⟩⟩, hq⟩
  · rename_i i _
    split at h
    · cases h
    · rename_i d hd
      have hdk : dk disks D i = d := by unfold dk; rw [hd]; rfl
      split at h
      · injection h with h; subst h
        refine ⟨⟨rfl, rfl, .inl ⟨rfl, rfl⟩⟩, ?_⟩
        intro d' b hb
        simp only at hb
        by_cases e : d' = d
        · subst e
          rw [setFn_same] at hb
          rcases List.mem_append.1 hb with hb | hb
          · exact hq _ b hb
          · rw [List.mem_singleton] at hb; subst hb; exact hdk
        · rw [setFn_ne _ _ e] at hb; exact hq d' b hb
      · rename_i hb
        have hb : s.busy d = false := by simpa using hb
        split at h
        · rename_i j rest hj
          injection h with h; subst h
          have hjd : dk disks D j = d := hq d j (by rw [hj]; simp)
          refine ⟨⟨rfl, rfl, .inr ⟨j, by rw [hjd]; exact hb, rfl, by rw [hjd]⟩⟩, ?_⟩
          intro d' b hb
          simp only at hb
          by_cases e : d' = d
          · subst e
            rw [setFn_same] at hb
            exact hq _ b (by rw [hj]; simp [hb])
          · rw [setFn_ne _ _ e] at hb; exact hq d' b hb
        · injection h with h; subst h
          exact ⟨⟨rfl, rfl, .inr ⟨i, by rw [hdk]; exact hb, rfl, by rw [hdk]⟩⟩, hq⟩

theorem refill_ext {t b : Nat} {s s' : Sim} (hq : ∀ d, ∀ b ∈ s.queues d, dk disks D b = d) (h : refill disks D t b s = some s') :
    Ext disks D t s s' := by
  unfold refill at h
  split at h
  · cases h
  · rename_i d hd
    split at h
    · injection h with h; subst h; exact ⟨rfl, rfl, .inl ⟨rfl, rfl⟩⟩
    · rename_i hb
      have hb : s.busy d = false := by simpa using hb
      split at h
      · injection h with h; subst h; exact ⟨rfl, rfl, .inl ⟨rfl, rfl⟩⟩
      · rename_i j rest hj
        injection h with h; subst h
        have hjd : dk disks D j = d := hq d j (by rw [hj]; simp)
        exact ⟨rfl, rfl, .inr ⟨j, by rw [hjd]; exact hb, rfl, by rw [hjd]⟩⟩

theorem iter_ext {s s' : Sim} {cur : Event} {rest : List Event} (hq : ∀ d, ∀ b ∈ s.queues d, dk disks D b = d) (h : iter disks D s cur rest = some s') :
    ∃ s2, Ext disks D cur.1 (popped s cur rest) s2 ∧ Ext disks D cur.1 s2 s' := by
  have h : (match advance disks D cur.1 (popped s cur rest) with | none => none | some s2 => refill disks D cur.1 cur.2 s2) = some s' := h
  split at h
  · cases h
  · rename_i s2 h2
    obtain ⟨e1, e2⟩ := advance_ext (s := popped s cur rest) hq h2
    exact ⟨s2, e1, refill_ext e2 h⟩

/-- The invariant about times. -/
structure InvT (disks : List (Option Nat)) (D m : Nat) (s : Sim) : Prop where
  d1 : ∀ p ∈ s.log, ∀ p' ∈ s.log, p.2 = p'.2 → dk disks D p.1 = dk disks D p'.1 → p = p'
  d2 : ∀ p ∈ s.log, ∀ e ∈ s.events, p.2 = e.1 → dk disks D p.1 ≠ dk disks D e.2
  d3 : s.events.Pairwise fun e e' => e.1 = e'.1 → dk disks D e.2 ≠ dk disks D e'.2
  d4 : s.oldtime ≠ 0 → ∀ e ∈ s.events, e.1 = s.oldtime + 1 → s.busy (dk disks D e.2) = true
  pos : ∀ p ∈ s.log, 1 ≤ p.2
  all : ∀ t, 1 ≤ t → t ≤ s.oldtime → ∃ p ∈ s.log, p.2 = t
  w : ∀ p ∈ s.log, ∃ i0, disks.length ≤ i0 + m + s.log.countP (fun p' => decide (p'.2 < p.2)) ∧ ∀ p' ∈ s.log, p'.2 ≤ p.2 → i0 ≤ p'.1
  cur : s.oldtime ≠ 0 → ∃ i0, disks.length ≤ i0 + m + s.log.countP (fun p' => decide (p'.2 < s.oldtime)) ∧
    (∀ p' ∈ s.log, i0 ≤ p'.1) ∧ ∀ e ∈ s.events, e.1 = s.oldtime → i0 ≤ e.2

theorem InvT.ext {m t : Nat} {s s' : Sim} (h : InvT disks D m s) (hi : ∀ e ∈ s.events, s.oldtime ≤ e.1) (hl : ∀ p ∈ s.log, p.2 ≤ s.oldtime) (ht : t = s.oldtime) (h0 : t ≠ 0)
    (e : Ext disks D t s s') : InvT disks D m s' ∧ ∀ e ∈ s'.events, s'.oldtime ≤ e.1 := by
  obtain ⟨el, eo, h1 | ⟨j, hb, he, hb'⟩⟩ := e
  · obtain ⟨h1, h2⟩ := h1
    refine ⟨⟨?_, ?_, ?_, ?_, ?_, ?_, ?_, ?_⟩, ?_⟩ <;> simp only [el, eo, h1, h2]
    · exact h.d1
    · exact h.d2
    · exact h.d3
    · exact h.d4
    · exact h.pos
    · exact h.all
    · exact h.w
    · exact h.cur
    · exact hi
  · subst ht
    refine ⟨⟨?_, ?_, ?_, ?_, ?_, ?_, ?_, ?_⟩, ?_⟩ <;> simp only [el, eo, he, hb']
    · exact h.d1
    · intro p hp e he hpe
      rcases List.mem_append.1 he with he | he
      · exact h.d2 p hp e he hpe
      · rw [List.mem_singleton] at he; subst he
        have := hl p hp
        simp only at hpe; omega
    · rw [List.pairwise_append]
      refine ⟨h.d3, by simp, ?_⟩
      intro e he e' he' hee
      rw [List.mem_singleton] at he'; subst he'
      intro hd
      have := h.d4 h0 e he hee
      rw [hd] at this
      simp only at this
      rw [hb] at this; cases this
    · intro _ e he het
      by_cases hd : dk disks D e.2 = dk disks D j
      · rw [hd, setFn_same]
      · rw [setFn_ne _ _ hd]
        rcases List.mem_append.1 he with he | he
        · exact h.d4 h0 e he het
        · rw [List.mem_singleton] at he; subst he; exact absurd rfl hd
    · exact h.pos
    · exact h.all
    · exact h.w
    · intro _
      obtain ⟨i0, a, b, c⟩ := h.cur h0
      refine ⟨i0, a, b, ?_⟩
      intro e he het
      rcases List.mem_append.1 he with he | he
      · exact c e he het
      · rw [List.mem_singleton] at he; subst he; simp only at het; omega
    · intro e he
      rcases List.mem_append.1 he with he | he
      · exact hi e he
      · rw [List.mem_singleton] at he; subst he; simp only; omega

theorem countP_le_time {l : List (Nat × Nat)} {b t u : Nat} (h : u ≤ t) : (l ++ [(b, t)]).countP (fun p' => decide (p'.2 < u)) = l.countP (fun p' => decide (p'.2 < u)) := by
  rw [List.countP_append]
  have : ¬ t < u := by omega
  simp [this]

theorem InvT.pop {m : Nat} {s : Sim} (hi : Inv disks D m s) (h : InvT disks D m s) {cur : Event} {rest : List Event}
    (hcur : cur ∈ s.events) (hmin : ∀ e ∈ s.events, cur.1 ≤ e.1) (hrest : rest = s.events.erase cur) :
    InvT disks D m (popped s cur rest) ∧ (∀ e ∈ rest, cur.1 ≤ e.1) ∧ (∀ p ∈ (popped s cur rest).log, p.2 ≤ cur.1) := by
  have hperm : s.events.Perm (cur :: rest) := by rw [hrest]; exact List.perm_cons_erase hcur
  have hsub : ∀ e ∈ rest, e ∈ s.events := fun e he => hperm.mem_iff.2 (by simp [he])
  have hct := hi.times cur hcur
  have hd3 : (cur :: rest).Pairwise fun e e' => e.1 = e'.1 → dk disks D e.2 ≠ dk disks D e'.2 :=
    hperm.pairwise h.d3 (fun {a b} hab e hd => hab e.symm hd.symm)
  rw [List.pairwise_cons] at hd3
  have hlt : ∀ p ∈ (popped s cur rest).log, p.2 ≤ cur.1 := by
    intro p hp
    rcases List.mem_append.1 hp with hp | hp
    · have := hi.logt.2 p hp; omega
    · rw [List.mem_singleton] at hp; subst hp; exact Nat.le_refl _
  have hidx : ∀ p ∈ s.log, s.i ≤ p.1 := by
    intro p hp
    have h1 := hi.cnt p.1
    have h2 : 0 < (s.log.map (·.1)).count p.1 := List.count_pos_iff.2 (List.mem_map_of_mem hp)
    split at h1
    · rename_i h3; exact h3.1
    · omega
  have hidx' : ∀ e ∈ s.events, s.i ≤ e.2 := by
    intro e he
    have h1 := hi.cnt e.2
    have h2 : 0 < evc s.events e.2 := List.count_pos_iff.2 (List.mem_map_of_mem he)
    split at h1
    · rename_i h3; exact h3.1
    · omega
  have hcurw : ∃ i0, disks.length ≤ i0 + m + (s.log ++ [(cur.2, cur.1)]).countP (fun p' => decide (p'.2 < cur.1)) ∧
      (∀ p' ∈ s.log ++ [(cur.2, cur.1)], i0 ≤ p'.1) ∧ ∀ e ∈ rest, e.1 = cur.1 → i0 ≤ e.2 := by
    rw [countP_le_time (Nat.le_refl _)]
    by_cases ht : s.oldtime = cur.1
    · obtain ⟨i0, a, b, c⟩ := h.cur (by omega)
      refine ⟨i0, by rw [← ht]; exact a, ?_, fun e he hee => c e (hsub e he) (by omega)⟩
      intro p hp
      rcases List.mem_append.1 hp with hp | hp
      · exact b p hp
      · rw [List.mem_singleton] at hp; subst hp; exact c cur hcur ht.symm
    · refine ⟨s.i, ?_, ?_, fun e he _ => hidx' e (hsub e he)⟩
      · have : s.log.countP (fun p' => decide (p'.2 < cur.1)) = s.log.length := by
          rw [List.countP_eq_length]
          intro p hp
          have := hi.logt.2 p hp
          simp only [decide_eq_true_eq]; omega
        rw [this]; exact hi.adv
      · intro p hp
        rcases List.mem_append.1 hp with hp | hp
        · exact hidx p hp
        · rw [List.mem_singleton] at hp; subst hp; exact hidx' cur hcur
  refine ⟨⟨?_, ?_, ?_, ?_, ?_, ?_, ?_, ?_⟩, fun e he => hmin e (hsub e he), hlt⟩ <;> simp only [popped]
  · intro p hp p' hp' ht hd
    rcases List.mem_append.1 hp with hp | hp <;> rcases List.mem_append.1 hp' with hp' | hp'
    · exact h.d1 p hp p' hp' ht hd
    · rw [List.mem_singleton] at hp'; subst hp'; exact absurd hd (h.d2 p hp cur hcur ht)
    · rw [List.mem_singleton] at hp; subst hp; exact absurd hd.symm (h.d2 p' hp' cur hcur ht.symm)
    · rw [List.mem_singleton] at hp hp'; rw [hp, hp']
  · intro p hp e he ht
    rcases List.mem_append.1 hp with hp | hp
    · exact h.d2 p hp e (hsub e he) ht
    · rw [List.mem_singleton] at hp; subst hp; exact hd3.1 e he ht
  · exact hd3.2
  · intro _ e he het
    have h1 := hi.times e (hsub e he)
    by_cases ht : s.oldtime = cur.1
    · rw [if_neg (by simpa using ht)]
      exact h.d4 (by omega) e (hsub e he) (by omega)
    · omega
  · intro p hp
    rcases List.mem_append.1 hp with hp | hp
    · exact h.pos p hp
    · rw [List.mem_singleton] at hp; subst hp; exact hct.2.2
  · intro t h1 h2
    by_cases ht : t = cur.1
    · exact ⟨_, List.mem_append_right _ (List.mem_singleton.2 rfl), ht.symm⟩
    · obtain ⟨p, hp, e⟩ := h.all t h1 (by omega)
      exact ⟨p, List.mem_append_left _ hp, e⟩
  · intro p hp
    by_cases hpt : p.2 = cur.1
    · rw [hpt]
      obtain ⟨i0, a, b, _⟩ := hcurw
      exact ⟨i0, a, fun p' hp' _ => b p' hp'⟩
    · have hp' : p ∈ s.log := by
        rcases List.mem_append.1 hp with hp | hp
        · exact hp
        · rw [List.mem_singleton] at hp; subst hp; exact absurd rfl hpt
      obtain ⟨i0, a, b⟩ := h.w p hp'
      have hle := hlt p hp
      rw [countP_le_time hle]
      refine ⟨i0, a, ?_⟩
      intro p' hp' hle'
      rcases List.mem_append.1 hp' with hp' | hp'
      · exact b p' hp' hle'
      · rw [List.mem_singleton] at hp'; subst hp'; simp only at hle'; omega
  · intro _; exact hcurw

theorem InvT.iter {m : Nat} {s s' : Sim} (hi : Inv disks D m s) (h : InvT disks D m s) {c : Nat} {cur : Event} {rest : List Event}
    (hp : popMin c s.events = some (cur, rest)) (hit : iter disks D s cur rest = some s') : InvT disks D m s' := by
  obtain ⟨h1, h2, h3⟩ := popMin_some hp
  obtain ⟨s2, e1, e2⟩ := iter_ext hi.qd hit
  obtain ⟨g1, g2, g3⟩ := h.pop hi h1 h2 h3
  have h0 : cur.1 ≠ 0 := by have := hi.times cur h1; omega
  obtain ⟨k1, k2⟩ := g1.ext (t := cur.1) g2 g3 rfl h0 e1
  have ho : s2.oldtime = cur.1 := e1.2.1
  have hlog : s2.log = (popped s cur rest).log := e1.1
  exact (k1.ext (t := cur.1) k2 (by rw [hlog, ho]; exact g3) ho.symm h0 e2).1

theorem start_invT {m : Nat} {busy0 : Nat → Bool} {s : Sim} (h : AllOk disks D) (hs : start disks m D busy0 = some s) : InvT disks D m s := by
  unfold start at hs
  split at hs
  · cases hs
  · rename_i i q hf
    injection hs with hs
    subst hs
    refine ⟨by simp, by simp, ?_, by simp, by simp, fun t h1 h2 => by simp only at h2; omega, by simp, by simp⟩
    simp only
    -- one event per disk
    have hq : ∀ d, ∀ b ∈ q d, dk disks D b = d := by
      obtain ⟨q', hf', hc⟩ := fill_spec h m disks.length (fun _ => []) (Nat.le_refl _)
      rw [hf'] at hf
      injection hf with hf
      injection hf with _ hf
      subst hf
      intro d b hb
      have h1 : 0 < (q' d).count b := List.count_pos_iff.2 hb
      rw [hc] at h1
      simp only [List.count_nil, Nat.zero_add] at h1
      split at h1
      · rename_i h2; exact h2.2.2
      · omega
    have : ∀ (n ii : Nat) (q : Nat → List Nat) (ev : List Event), (∀ d, ∀ b ∈ q d, dk disks D b = d) → (∀ e ∈ ev, dk disks D e.2 < ii) →
        (ev.Pairwise fun e e' => e.1 = e'.1 → dk disks D e.2 ≠ dk disks D e'.2) →
        ((kick n ii q ev).2.Pairwise fun e e' => e.1 = e'.1 → dk disks D e.2 ≠ dk disks D e'.2) := by
      intro n
      induction n with
      | zero => intro ii q ev _ _ h; exact h
      | succ n ih =>
        intro ii q ev hq hlt hp
        unfold kick
        split
        · exact ih (ii + 1) q ev hq (fun e he => by have := hlt e he; omega) hp
        · rename_i j rest hj
          have hjd : dk disks D j = ii := hq ii j (by rw [hj]; simp)
          apply ih
          · intro d b hb
            by_cases e : d = ii
            · subst e; rw [setFn_same] at hb; exact hq _ b (by rw [hj]; simp [hb])
            · rw [setFn_ne _ _ e] at hb; exact hq d b hb
          · intro e he
            rcases List.mem_append.1 he with he | he
            · have := hlt e he; omega
            · rw [List.mem_singleton] at he; subst he; simp only [hjd]; omega
          · rw [List.pairwise_append]
            refine ⟨hp, by simp, ?_⟩
            intro e he e' he' _
            rw [List.mem_singleton] at he'; subst he'
            have := hlt e he
            simp only [hjd]; omega
    exact this (D + 1) 0 q [] hq (by simp) .nil

end

end Foxxll.Sched
