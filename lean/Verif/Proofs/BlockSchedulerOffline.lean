import Verif.Proofs.BlockSchedulerCount

set_option linter.unusedSimpArgs false
set_option linter.unusedVariables false

namespace Foxxll.Swap

variable {D : Type}

/-! ### Calls about other blocks -/

theorem next_other {a : Abs D} {op : Op D} {r : Res D} {id : Nat} (h : opId op ≠ some id) :
    (a.next op r).data id = a.data id ∧ (a.next op r).refs id = a.refs id ∧ (a.next op r).work id = a.work id ∧ (a.next op r).changed id = a.changed id := by
  cases op with
  | acquire i u =>
    have : id ≠ i := fun e => h (by rw [e]; rfl)
    cases r <;> simp only [Abs.next] <;> (try split) <;> simp [upd_other _ _ this]
  | write i d =>
    have : id ≠ i := fun e => h (by rw [e]; rfl)
    simp [Abs.next, upd_other _ _ this]
  | release i dirty pr =>
    have : id ≠ i := fun e => h (by rw [e]; rfl)
    cases dirty <;> simp [Abs.next, upd_other _ _ this]
  | deinit i =>
    have : id ≠ i := fun e => h (by rw [e]; rfl)
    simp [Abs.next, upd_other _ _ this]
  | free i =>
    have : id ≠ i := fun e => h (by rw [e]; rfl)
    simp [Abs.next, upd_other _ _ this]
  | init i e =>
    have : id ≠ i := fun e => h (by rw [e]; rfl)
    cases e <;> simp [Abs.next, upd_other _ _ this]
  | extract i =>
    have : id ≠ i := fun e => h (by rw [e]; rfl)
    cases r with
    | ext e => cases e <;> simp [Abs.next, upd_other _ _ this]
    | _ => exact ⟨rfl, rfl, rfl, rfl⟩
  | flush => exact ⟨rfl, rfl, rfl, rfl⟩
  | alloc => exact ⟨rfl, rfl, rfl, rfl⟩
  | client d =>
    cases r with
    | ext e => cases e <;> exact ⟨rfl, rfl, rfl, rfl⟩
    | _ => exact ⟨rfl, rfl, rfl, rfl⟩
  | retag m l => exact ⟨rfl, rfl, rfl, rfl⟩

theorem elsewhere_run {E : Env D} {id : Nat} {s t : St D} {a b : Abs D} (h : Run E s a) (he : Elsewhere E id s a t b) :
    Run E t b ∧ b.data id = a.data id ∧ b.refs id = a.refs id := by
  induction he with
  | nil => exact ⟨h, rfl, rfl⟩
  | step op _ ho ha hs ih =>
    obtain ⟨n1, n2, _, _⟩ := next_other (a := _) (r := _) ho
    exact ⟨Run.step op ih.1 ha hs, n1.trans ih.2.1, n2.trans ih.2.2⟩

/-! ### Simulation -/

theorem initialized_iff {dflt : D} {s : St D} {a : Abs D} (h : Inv dflt s a) (id : Nat) :
    (s.blocks id).isInitialized = true ↔ 0 < a.refs id ∨ a.data id ≠ none := by
  have ho := h.ok id
  rw [ho.refs]
  cases hp : (s.blocks id).int with
  | some p =>
    simp only [SB.isInitialized, SB.isInternal, hp, Option.isSome_some, Bool.true_or, true_iff]
    rcases Nat.eq_zero_or_pos (s.blocks id).refs with h0 | h0
    · exact .inr (by rw [ho.idleIn p h0 hp]; simp)
    · exact .inl h0
  | none =>
    have h0 : (s.blocks id).refs = 0 := by
      rcases Nat.eq_zero_or_pos (s.blocks id).refs with h0 | h0
      · exact h0
      · exact absurd hp (h.core.refsInt id h0)
    have hd : (s.blocks id).dirty = false := by
      cases hd : (s.blocks id).dirty with
      | false => rfl
      | true => exact absurd hp (h.core.dirtyInt id hd)
    rw [ho.idleOut h0 hd]
    simp only [SB.isInitialized, SB.isInternal, SB.isExternal, hp, hd, h0]
    cases (s.blocks id).ext <;> simp

/-- The counts of the simulation. -/
def Counts (a : Abs D) (m : Sim) (bound : Nat) : Prop :=
  ∀ id, ∃ k, m.counts id = a.refs id + k ∧ (0 < k ↔ a.data id ≠ none) ∧ a.refs id + k ≤ bound

theorem counts_other {a : Abs D} {m : Sim} {b : Nat} (h : Counts a m b) {op : Op D} {r : Res D} {id : Nat} (ho : opId op ≠ some id)
    (hm : (m.step op).counts id = m.counts id) : ∃ k, (m.step op).counts id = (a.next op r).refs id + k ∧ (0 < k ↔ (a.next op r).data id ≠ none) ∧ (a.next op r).refs id + k ≤ b + 1 := by
  obtain ⟨n1, n2, _, _⟩ := next_other (a := a) (r := r) ho
  obtain ⟨k, h1, h2, h3⟩ := h id
  exact ⟨k, by rw [hm, n2]; exact h1, by rw [n1]; exact h2, by rw [n2]; omega⟩

theorem setCount_other (m : Sim) {i id : Nat} (c : Nat) (h : id ≠ i) : (m.setCount i c).counts id = m.counts id := if_neg h

theorem sim_counts_other (m : Sim) (op : Op D) (id : Nat) (ho : opId op ≠ some id) : (m.step op).counts id = m.counts id := by
  cases op with
  | acquire i u => exact setCount_other m _ fun e => ho (by rw [e]; rfl)
  | release i dirty pr => exact setCount_other m _ fun e => ho (by rw [e]; rfl)
  | deinit i => exact setCount_other m _ fun e => ho (by rw [e]; rfl)
  | free i => exact setCount_other m _ fun e => ho (by rw [e]; rfl)
  | init i e => exact setCount_other m _ fun e => ho (by rw [e]; rfl)
  | extract i => exact setCount_other m _ fun e => ho (by rw [e]; rfl)
  | write i d => rfl
  | flush => rfl
  | alloc => rfl
  | client d => rfl
  | retag _ _ => rfl

theorem sim_release_count (m : Sim) (i : Nat) (dirty : Bool) : (m.release i dirty).counts i = ((m.counts i + 2 ^ 64 - 1) % 2 ^ 64 + (if dirty then 1 else 0)) % 2 ^ 64 := if_pos rfl

theorem sim_acquire_count (m : Sim) (i : Nat) (u : Bool) : (m.acquire i u).counts i = (m.counts i + 1) % 2 ^ 64 := if_pos rfl

theorem counts_step {E : Env D} (hE : ∀ l, E.pick l ∉ l) {dflt : D} (hf : ∀ d, E.fill d = dflt) {s s' : St D} {a : Abs D} {m : Sim} {b : Nat} (hi : Inv dflt s a)
    (h : Counts a m b) (hb : b + 1 < 2 ^ 64) (op : Op D) (r : Res D) (ha : Allowed a op) (hv : ∀ id, op ≠ .init id none) (hs : step E s op = some (r, s')) :
    Counts (a.next op r) (m.step op) (b + 1) := by
  obtain ⟨hex, hi'⟩ := step_inv E hE hf hi op ha hs
  intro id
  by_cases ho : opId op = some id
  · obtain ⟨k, h1, h2, h3⟩ := h id
    cases op with
    | acquire i u =>
      cases ho
      simp only [step, Option.map_eq_some_iff] at hs
      obtain ⟨x, _, hx⟩ := hs
      cases hx
      refine ⟨k, ?_, ?_, ?_⟩
      · show (m.acquire id u).counts id = _
        rw [sim_acquire_count, h1, Nat.mod_eq_of_lt (by omega)]
        simp only [Abs.next]
        split <;> simp <;> omega
      · simp only [Abs.next]; split <;> exact h2
      · simp only [Abs.next]; split <;> simp <;> omega
    | write i d =>
      cases ho
      exact ⟨k, h1, h2, by show a.refs id + k ≤ b + 1; omega⟩
    | release i dirty pr =>
      cases ho
      obtain ⟨r1, _⟩ := ha
      have hcnt : (m.step (.release id dirty pr : Op D)).counts id = a.refs id - 1 + k + (if dirty then 1 else 0) := by
        show (m.release id dirty).counts id = _
        rw [sim_release_count, h1]
        have e1 : (a.refs id + k + 2 ^ 64 - 1) % 2 ^ 64 = a.refs id + k - 1 := by
          rw [show a.refs id + k + 2 ^ 64 - 1 = (a.refs id + k - 1) + 2 ^ 64 by omega, Nat.add_mod_right, Nat.mod_eq_of_lt (by omega)]
        rw [e1, Nat.mod_eq_of_lt (by split <;> omega)]
        omega
      have hw : a.work id ≠ none := by
        have hr : 0 < (s.blocks id).refs := by rw [← (hi.ok id).refs]; exact r1
        obtain ⟨p, hp⟩ := Option.ne_none_iff_exists'.1 (hi.core.refsInt id hr)
        rw [((hi.ok id).used p hr hp).1]; simp
      cases dirty with
      | true =>
        refine ⟨k + 1, ?_, ?_, ?_⟩
        · rw [hcnt]; simp [Abs.next]; omega
        · simp [Abs.next, hw]
        · simp [Abs.next]; omega
      | false =>
        refine ⟨k, ?_, ?_, ?_⟩
        · rw [hcnt]; simp [Abs.next]
        · simpa [Abs.next] using h2
        · simp [Abs.next]; omega
    | deinit i =>
      cases ho
      have h0 : a.refs id = 0 := ha
      exact ⟨0, by simp [Sim.step, Sim.deinit, Sim.push, Sim.setCount, Abs.next, h0], by simp [Abs.next], by simp [Abs.next, h0]⟩
    | free i =>
      cases ho
      have h0 : a.refs id = 0 := ha
      exact ⟨0, by simp [Sim.step, Sim.deinit, Sim.push, Sim.setCount, Abs.next, h0], by simp [Abs.next], by simp [Abs.next, h0]⟩
    | init i e =>
      cases ho
      obtain ⟨h0, _, hh⟩ := ha
      cases e with
      | none => exact absurd rfl (hv id)
      | some e => exact ⟨1, by simp [Sim.step, Sim.init, Sim.push, Sim.setCount, Abs.next, h0], by simp [Abs.next, hh e rfl], by simp [Abs.next, h0]⟩
    | extract i =>
      cases ho
      have h0 : a.refs id = 0 := ha
      simp only [step, Option.map_eq_some_iff] at hs
      obtain ⟨x, _, hx⟩ := hs
      cases hx
      refine ⟨0, ?_, ?_, ?_⟩
      · simp only [Sim.step, Sim.extract, Sim.push, Sim.setCount, if_true]
        cases x.1 <;> simp [Abs.next, h0]
      · simp only [Expected] at hex
        cases hx1 : x.1 with
        | some e => simp [Abs.next]
        | none =>
          rw [hx1] at hex
          split at hex
          · rename_i hd; simp [Abs.next, hd]
          · obtain ⟨e, he, _⟩ := hex; cases he
      · cases x.1 <;> simp [Abs.next, h0]
    | flush => cases ho
    | alloc => cases ho
    | client d => cases ho
    | retag m l => cases ho
  · exact counts_other h ho (sim_counts_other m op id ho)

/-- What holds during a simulation. -/
structure SimInv (dflt : D) (s : St D) (a : Abs D) (m : Sim) (l : List (Op D)) : Prop where
  inv : Inv dflt s a
  cnt : Counts a m (l.length + 1)
  seq : m.seq.map (fun e => (e.op, e.id)) = l.filterMap Op.recorded
  times : m.seq.Pairwise fun x y => x.time ≤ y.time
  last : ∀ x ∈ m.seq, x.time ≤ m.time

theorem push_times {m M : Sim} {op : POp} {id : Nat} (hs : M.seq = m.seq ++ [{ op := op, id := id, time := M.time }]) (ht : m.time ≤ M.time)
    (h : m.seq.Pairwise fun x y => x.time ≤ y.time) (hl : ∀ x ∈ m.seq, x.time ≤ m.time) :
    (M.seq.Pairwise fun x y => x.time ≤ y.time) ∧ ∀ x ∈ M.seq, x.time ≤ M.time := by
  rw [hs]
  constructor
  · refine List.pairwise_append.2 ⟨h, by simp, fun x hx y hy => ?_⟩
    simp only [List.mem_singleton] at hy
    subst hy
    exact Nat.le_trans (hl x hx) ht
  · intro x hx
    simp only [List.mem_append, List.mem_singleton] at hx
    rcases hx with hx | rfl
    · exact Nat.le_trans (hl x hx) ht
    · exact Nat.le_refl _

theorem both_inv {E : Env D} (hE : ∀ l, E.pick l ∉ l) {dflt : D} (hf : ∀ d, E.fill d = dflt) {s0 s : St D} {a0 a : Abs D} {m : Sim} {l : List (Op D)}
    (h0 : Inv dflt s0 a0) (hr : ∀ id, a0.refs id = 0) (h : Both E s0 a0 s a m l) (hl : l.length + 1 < 2 ^ 64) : SimInv dflt s a m l := by
  induction h with
  | start =>
    refine ⟨h0, fun id => ?_, rfl, List.Pairwise.nil, fun x hx => by cases hx⟩
    have hii := initialized_iff h0 id
    rw [hr id] at hii
    simp only [Nat.lt_irrefl, false_or] at hii
    rw [hr id]
    by_cases hd : a0.data id = none
    · refine ⟨0, ?_, by simp [hd], by omega⟩
      simp only [Sim.start]
      rw [if_neg]
      intro hc
      exact (hii.1 hc.2) hd
    · refine ⟨1, ?_, by simp [hd], by simp⟩
      have hI := hii.2 hd
      have hlt : id < s0.n := by
        have hI' := hI
        simp only [SB.isInitialized, SB.isInternal, SB.isExternal, Bool.or_eq_true, Bool.and_eq_true, Option.isSome_iff_exists] at hI'
        rcases hI' with ⟨p, hp⟩ | ⟨⟨e, he⟩, _⟩
        · exact (h0.core.att id p hp).1
        · exact (h0.core.extLive id e he).1
      simp only [Sim.start]
      rw [if_pos ⟨hlt, hI⟩]
  | tick _ ih =>
    obtain ⟨i1, i2, i3, i4, i5⟩ := ih hl
    exact ⟨i1, i2, i3, i4, fun x hx => Nat.le_succ_of_le (i5 x hx)⟩
  | @step s a m l s' r op _ ha hv hs ih =>
    simp only [List.length_append, List.length_cons, List.length_nil] at hl ⊢
    obtain ⟨i1, i2, i3, i4, i5⟩ := ih (by omega)
    have hc := counts_step hE hf i1 i2 (by omega) op r ha hv hs
    have hsq : (m.step op).seq.map (fun e => (e.op, e.id)) = (l ++ [op]).filterMap Op.recorded := by
      rw [List.filterMap_append, ← i3]
      have key : ∀ (m' : Sim) (o : POp) (i : Nat), m'.seq = m.seq → (m'.push o i).seq.map (fun e => (e.op, e.id)) = m.seq.map (fun e => (e.op, e.id)) ++ [(o, i)] := by
        intro m' o i hm
        simp [Sim.push, hm]
      cases op with
      | acquire id u => exact key _ _ id rfl
      | release id dirty pr => exact key _ _ id rfl
      | deinit id => exact key _ _ id rfl
      | free id => exact key _ _ id rfl
      | init id e => exact key _ _ id rfl
      | extract id => exact key _ _ id rfl
      | write _ _ => exact (List.append_nil _).symm
      | flush => exact (List.append_nil _).symm
      | alloc => exact (List.append_nil _).symm
      | client _ => exact (List.append_nil _).symm
      | retag _ _ => exact (List.append_nil _).symm
    have htm : ((m.step op).seq.Pairwise fun x y => x.time ≤ y.time) ∧ ∀ x ∈ (m.step op).seq, x.time ≤ (m.step op).time := by
      cases op with
      | acquire id u => exact push_times (id := id) rfl (Nat.le_refl _) i4 i5
      | release id dirty pr => exact push_times (m := m) (M := m.release id dirty) (id := id) rfl (Nat.le_add_right _ _) i4 i5
      | deinit id => exact push_times (id := id) rfl (Nat.le_refl _) i4 i5
      | free id => exact push_times (id := id) rfl (Nat.le_refl _) i4 i5
      | init id e => exact push_times (id := id) rfl (Nat.le_refl _) i4 i5
      | extract id => exact push_times (id := id) rfl (Nat.le_refl _) i4 i5
      | write _ _ => exact ⟨i4, i5⟩
      | flush => exact ⟨i4, i5⟩
      | alloc => exact ⟨i4, i5⟩
      | client _ => exact ⟨i4, i5⟩
      | retag _ _ => exact ⟨i4, i5⟩
    exact ⟨(step_inv E hE hf i1 op ha hs).2, by simpa using hc, hsq, htm.1, htm.2⟩

/-! ### Longest forward distance -/

theorem detach_mode {E : Env D} {s s' : St D} {id p : Nat} (h : detach E s id = some (p, s')) : s'.mode = s.mode ∧ s'.n = s.n := by
  unfold detach at h
  split at h
  · simp only [Option.bind_eq_some_iff] at h
    obtain ⟨s1, h1, h2⟩ := h
    have : s1.mode = s.mode ∧ s1.n = s.n := by
      unfold clean at h1
      simp only at h1
      split at h1
      · split at h1
        · cases h1
        · cases h1; exact ⟨rfl, rfl⟩
      · cases h1; exact ⟨rfl, rfl⟩
    split at h2
    · cases h2
    · cases h2; exact this
  · cases h

theorem getFreeBs_mode (s : St D) : (getFreeBs s).2.mode = s.mode := by
  unfold getFreeBs
  split
  · rfl
  · split <;> rfl

theorem flushAux_mode (E : Env D) (k : Nat) {s s' : St D} (h : flushAux E k s = some s') : s'.mode = s.mode := by
  induction k generalizing s with
  | zero => cases h; rfl
  | succ k ih =>
    simp only [flushAux] at h
    split at h
    · cases h; rfl
    · simp only [Option.bind_eq_some_iff] at h
      obtain ⟨x, h1, h2⟩ := h
      rw [ih h2]; exact (detach_mode h1).1

theorem deinit_mode {s s' : St D} {id : Nat} (h : deinit s id = some s') : s'.mode = s.mode := by
  unfold deinit at h
  split at h
  · cases h
  · simp only at h
    split at h
    · cases h
    · split at h <;> cases h <;> (try simp only [giveBack, set_mode]) <;> split <;> rfl

theorem step_mode {E : Env D} {s s' : St D} {op : Op D} {r} (hm : ∀ m l, op ≠ .retag m l) (h : step E s op = some (r, s')) : s'.mode = s.mode := by
  cases op with
  | acquire id u =>
    simp only [step, Option.map_eq_some_iff] at h
    obtain ⟨x, h1, h2⟩ := h
    cases h2
    unfold acquire at h1
    split at h1
    · cases h1
    · simp only at h1
      split at h1
      · cases h1
        simp only [set_mode]
        split <;> rfl
      · simp only [Option.map_eq_some_iff] at h1
        obtain ⟨y, h3, h4⟩ := h1
        cases h4
        show y.2.mode = s.mode
        unfold getFree at h3
        have hm := getFreeBs_mode s
        cases hg : getFreeBs s with
        | mk o s1 =>
          rw [hg] at h3 hm
          cases o with
          | some p => simp only at h3; cases h3; exact hm
          | none =>
            simp only at h3
            split at h3
            · cases h3
            · rw [(detach_mode h3).1]; exact hm
  | write id d =>
    simp only [step, Option.map_eq_some_iff] at h
    obtain ⟨x, h1, h2⟩ := h
    cases h2
    unfold write at h1
    split at h1
    · cases h1
    · split at h1
      · simp only [Option.map_eq_some_iff] at h1
        obtain ⟨y, _, h4⟩ := h1
        cases h4; rfl
      · cases h1
  | release id dirty pr =>
    simp only [step, Option.map_eq_some_iff] at h
    obtain ⟨x, h1, h2⟩ := h
    cases h2
    unfold releaseWith at h1
    split at h1
    · cases h1
    · simp only at h1
      split at h1
      · split at h1
        · cases h1; rfl
        · split at h1
          · cases h1; rfl
          · simp only [Option.map_eq_some_iff] at h1
            obtain ⟨y, h3, h4⟩ := h1
            cases h4
            exact (detach_mode h3).1
      · cases h1
  | deinit id =>
    simp only [step, Option.map_eq_some_iff] at h
    obtain ⟨x, h1, h2⟩ := h
    cases h2
    exact deinit_mode h1
  | free id =>
    simp only [step, freeBlock, Option.map_map, Option.map_eq_some_iff] at h
    obtain ⟨x, h1, h2⟩ := h
    cases h2
    have := deinit_mode h1
    exact this
  | init id e =>
    simp only [step, Option.map_eq_some_iff] at h
    obtain ⟨x, h1, h2⟩ := h
    cases h2
    unfold initialize_ at h1
    split at h1
    · cases h1
    · simp only at h1
      split at h1
      · cases h1
      · cases h1; rfl
  | extract id =>
    simp only [step, extract, Option.map_eq_some_iff] at h
    obtain ⟨x, h1, h2⟩ := h
    cases h2
    split at h1
    · cases h1
    · simp only [Option.map_eq_some_iff] at h1
      obtain ⟨y, h3, h4⟩ := h1
      cases h4
      show y.mode = s.mode
      unfold putOut at h3
      simp only at h3
      split at h3
      · simp only [Option.map_eq_some_iff] at h3
        obtain ⟨z, h5, h6⟩ := h3
        cases h6
        show z.2.mode = s.mode
        rw [(detach_mode h5).1]
        split <;> rfl
      · cases h3
        split <;> rfl
  | flush =>
    simp only [step, Option.map_eq_some_iff] at h
    obtain ⟨x, h1, h2⟩ := h
    cases h2
    exact flushAux_mode E _ h1
  | alloc =>
    cases h
    unfold alloc
    split <;> rfl
  | client d => cases h; rfl
  | retag m l => exact absurd rfl (hm m l)

/-- The evictable blocks that remain are as before. -/
def Kept (s s' : St D) : Prop := ∀ x ∈ s'.evict, x ∈ s.evict ∧ s'.blocks x.2 = s.blocks x.2

theorem detach_kept {E : Env D} (hE : ∀ l, E.pick l ∉ l) {s s' : St D} {id p : Nat} (h : detach E s id = some (p, s')) (hn : id ∉ s.evict.map (·.2)) : Kept s s' := by
  have hd := detach_inv hE h
  intro x hx
  rw [hd.rest.2.2.2.2.2.1] at hx
  refine ⟨hx, hd.other x.2 ?_⟩
  intro e
  exact hn (by rw [← e]; exact List.mem_map.2 ⟨x, hx, rfl⟩)

theorem pop_kept {E : Env D} (hE : ∀ l, E.pick l ∉ l) {s s' : St D} {x : Nat × Nat} {rest : List (Nat × Nat)} {p : Nat} (he : Ev s)
    (hp : popEvict s.mode s.evict = some (x, rest)) (h : detach E { s with evict := rest } x.2 = some (p, s')) : Kept s s' := by
  have hperm := pop_perm hp
  have hnd := (hperm.map (·.2)).nodup_iff.1 he.nd
  obtain ⟨n1, _⟩ := List.nodup_cons.1 hnd
  intro y hy
  obtain ⟨k1, k2⟩ := detach_kept hE h n1 y hy
  exact ⟨hperm.mem_iff.2 (List.mem_cons_of_mem _ k1), k2⟩

theorem Kept.trans {s t u : St D} (h1 : Kept s t) (h2 : Kept t u) : Kept s u := fun x hx =>
  ⟨(h1 x (h2 x hx).1).1, (h2 x hx).2.trans (h1 x (h2 x hx).1).2⟩

theorem getFree_kept {E : Env D} (hE : ∀ l, E.pick l ∉ l) {s s' : St D} {p : Nat} (he : Ev s) (h : getFree E s = some (p, s')) : Kept s s' := by
  unfold getFree at h
  have hb : (getFreeBs s).2.blocks = s.blocks ∧ (getFreeBs s).2.evict = s.evict ∧ (getFreeBs s).2.mode = s.mode := by
    unfold getFreeBs; split
    · exact ⟨rfl, rfl, rfl⟩
    · split <;> exact ⟨rfl, rfl, rfl⟩
  cases hg : getFreeBs s with
  | mk o s1 =>
    rw [hg] at h hb
    simp only at hb
    obtain ⟨hb1, hb2, hb3⟩ := hb
    cases o with
    | some q =>
      simp only at h
      cases h
      intro x hx
      rw [hb2] at hx
      exact ⟨hx, by rw [hb1]⟩
    | none =>
      simp only at h
      cases hp : popEvict s1.mode s1.evict with
      | none => rw [hp] at h; cases h
      | some xr =>
        rw [hp] at h
        simp only at h
        have hk := pop_kept hE (he.congr hb1 hb2) hp h
        intro x hx
        obtain ⟨k1, k2⟩ := hk x hx
        rw [hb2] at k1
        exact ⟨k1, k2.trans (by rw [hb1])⟩

theorem acquire_kept {E : Env D} (hE : ∀ l, E.pick l ∉ l) {s s' : St D} {id p : Nat} {u : Bool} (hc : Core s none) (he : Ev s) (h : acquire E s id u = some (p, s')) :
    Kept s s' ∧ ∀ x ∈ s'.evict, x.2 ≠ id := by
  unfold acquire at h
  split at h
  · cases h
  · simp only at h
    split at h
    · rename_i q hq
      cases h
      cases hac : (s.blocks id).isAcquired with
      | true =>
        have hnin : id ∉ s.evict.map (·.2) := by
          rw [he.mem id]
          simp only [SB.isAcquired, decide_eq_true_eq] at hac
          omega
        simp only [if_true, set_evict]
        have hne : ∀ x ∈ s.evict, x.2 ≠ id := fun x hx e => hnin (by rw [← e]; exact List.mem_map.2 ⟨x, hx, rfl⟩)
        exact ⟨fun x hx => ⟨hx, set_other _ _ (hne x hx)⟩, hne⟩
      | false =>
        simp only [Bool.false_eq_true, if_false]
        have hne : ∀ x ∈ eraseEvict s.evict id, x ∈ s.evict ∧ x.2 ≠ id := fun x hx => by
          simpa [eraseEvict] using hx
        exact ⟨fun x hx => ⟨(hne x hx).1, by rw [set_other _ _ (hne x hx).2]⟩, fun x hx => (hne x hx).2⟩
    · rename_i hq
      simp only [Option.map_eq_some_iff] at h
      obtain ⟨r, h1, h2⟩ := h
      cases h2
      have hk := getFree_kept hE he h1
      have hne : ∀ x ∈ r.2.evict, x.2 ≠ id := by
        intro x hx e
        have := (he.mem x.2).1 (List.mem_map.2 ⟨x, (hk x hx).1, rfl⟩)
        rw [e, hq] at this
        exact this.1 rfl
      refine ⟨fun x hx => ?_, hne⟩
      obtain ⟨k1, k2⟩ := hk x hx
      refine ⟨k1, Eq.trans ?_ k2⟩
      simp [bringIn, St.set, hne x hx]

theorem deinit_kept {s s' : St D} {id : Nat} (he : Ev s) (h : deinit s id = some s') : Kept s s' ∧ ∀ x ∈ s'.evict, x.2 ≠ id := by
  have key : ∀ x ∈ (if (s.blocks id).isEvictable then ({ s with evict := eraseEvict s.evict id } : St D) else s).evict, x ∈ s.evict ∧ x.2 ≠ id := by
    intro x hx
    cases hev : (s.blocks id).isEvictable with
    | true => rw [hev] at hx; simpa [eraseEvict] using hx
    | false =>
      rw [hev] at hx
      refine ⟨hx, fun e => ?_⟩
      have := (he.mem x.2).1 (List.mem_map.2 ⟨x, hx, rfl⟩)
      rw [e] at this
      obtain ⟨p, hp⟩ := Option.ne_none_iff_exists'.1 this.1
      simp [SB.isEvictable, SB.isAcquired, SB.isInternal, hp, this.2] at hev
  have hbl : (if (s.blocks id).isEvictable then ({ s with evict := eraseEvict s.evict id } : St D) else s).blocks = s.blocks := by split <;> rfl
  unfold deinit at h
  split at h
  · cases h
  · simp only at h
    split at h
    · cases h
    · generalize (if (s.blocks id).isEvictable then ({ s with evict := eraseEvict s.evict id } : St D) else s) = s1 at h key hbl
      have fin : ∀ t : St D, t.evict = s1.evict → t.blocks = (s1.set id {}).blocks → Kept s t ∧ ∀ x ∈ t.evict, x.2 ≠ id := by
        intro t h1 h2
        rw [Kept, h1, h2]
        exact ⟨fun x hx => ⟨(key x hx).1, by rw [set_other _ _ (key x hx).2, hbl]⟩, fun x hx => (key x hx).2⟩
      split at h <;> cases h <;> exact fin _ rfl rfl

theorem init_kept {s s' : St D} {id : Nat} {e : Option Nat} (he : Ev s) (h : initialize_ s id e = some s') : Kept s s' ∧ ∀ x ∈ s'.evict, x.2 ≠ id := by
  unfold initialize_ at h
  split at h
  · cases h
  · simp only at h
    split at h
    · cases h
    · rename_i hI
      cases h
      have hne : ∀ x ∈ s.evict, x.2 ≠ id := by
        intro x hx hc
        have := (he.mem x.2).1 (List.mem_map.2 ⟨x, hx, rfl⟩)
        rw [hc] at this
        obtain ⟨p, hp⟩ := Option.ne_none_iff_exists'.1 this.1
        simp [SB.isInitialized, SB.isInternal, hp] at hI
      exact ⟨fun x hx => ⟨hx, by simp [St.set, hne x hx]⟩, hne⟩

theorem extract_kept {E : Env D} (hE : ∀ l, E.pick l ∉ l) {s s' : St D} {id : Nat} {o : Option Nat} (hc : Core s none) (he : Ev s) (h : extract E s id = some (o, s')) :
    Kept s s' ∧ ∀ x ∈ s'.evict, x.2 ≠ id := by
  unfold extract at h
  split at h
  · cases h
  · simp only [Option.map_eq_some_iff] at h
    obtain ⟨s1, h1, h2⟩ := h
    cases h2
    have hr : (s.blocks id).refs = 0 := by
      rcases Nat.eq_zero_or_pos (s.blocks id).refs with h0 | h0
      · exact h0
      · exfalso
        obtain ⟨p, hp⟩ := Option.ne_none_iff_exists'.1 (hc.refsInt id h0)
        simp [putOut, detach, SB.isEvictable, SB.isInternal, SB.isAcquired, h0, hp] at h1
    have hkey : Kept s s1 ∧ s1.evict = eraseEvict s.evict id := by
      obtain ⟨t, g1, _, _, _, _, g6⟩ := putOut_spec E hE hc he id hr
      rw [h1] at g1; cases g1
      refine ⟨fun x hx => ?_, g6⟩
      rw [g6] at hx
      simp only [eraseEvict, List.mem_filter, bne_iff_ne, ne_eq] at hx
      refine ⟨hx.1, ?_⟩
      unfold putOut at h1
      simp only at h1
      split at h1
      · simp only [Option.map_eq_some_iff] at h1
        obtain ⟨r, h3, h4⟩ := h1
        cases h4
        have hd := detach_inv hE h3
        have := hd.other x.2 hx.2
        refine this.trans ?_
        split <;> rfl
      · cases h1; split <;> rfl
    have hne : ∀ x ∈ s1.evict, x.2 ≠ id := by
      intro x hx
      rw [hkey.2] at hx
      simp only [eraseEvict, List.mem_filter, bne_iff_ne, ne_eq] at hx
      exact hx.2
    exact ⟨fun x hx => ⟨(hkey.1 x hx).1, by rw [← (hkey.1 x hx).2]; simp [St.set, hne x hx]⟩, hne⟩

theorem flushAux_kept {E : Env D} (hE : ∀ l, E.pick l ∉ l) (k : Nat) {s s' : St D} (hc : Core s none) (he : Ev s) (h : flushAux E k s = some s') : Kept s s' := by
  induction k generalizing s with
  | zero => cases h; exact fun x hx => ⟨hx, rfl⟩
  | succ k ih =>
    simp only [flushAux] at h
    cases hp : popEvict s.mode s.evict with
    | none => rw [hp] at h; cases h; exact fun x hx => ⟨hx, rfl⟩
    | some xr =>
      rw [hp] at h
      simp only [Option.bind_eq_some_iff] at h
      obtain ⟨r, h1, h2⟩ := h
      have hk := pop_kept hE he hp h1
      have hd := detach_inv hE h1
      have hk' : Kept s (giveBack r.2 r.1) := hk
      exact hk'.trans (ih (giveBack_core (detached_core (hc.evict s.mode xr.2) hd)) (giveBack_ev (detached_ev he (pop_perm hp) hd) r.1) h2)

theorem release_kept {E : Env D} (hE : ∀ l, E.pick l ∉ l) {s s' : St D} {id : Nat} {dirty : Bool} {pr : SB → Nat} (he : Ev s) (h : releaseWith E s id dirty pr = some s') :
    ∀ x ∈ s'.evict, (x ∈ s.evict ∧ s'.blocks x.2 = s.blocks x.2) ∨ x = (pr (s'.blocks id), id) := by
  unfold releaseWith at h
  split at h
  · cases h
  · simp only at h
    split at h
    · rename_i hac
      have hne : ∀ x ∈ s.evict, x.2 ≠ id := by
        intro x hx hcc
        have := (he.mem x.2).1 (List.mem_map.2 ⟨x, hx, rfl⟩)
        rw [hcc] at this
        simp only [SB.isAcquired, decide_eq_true_eq] at hac
        omega
      split at h
      · cases h
        intro x hx
        exact .inl ⟨hx, set_other _ _ (hne x hx)⟩
      · split at h
        · cases h
          intro x hx
          simp only [set_evict, insertEvict, List.mem_append, List.mem_singleton] at hx
          rcases hx with hx | hx
          · simp only [eraseEvict, List.mem_filter] at hx
            exact .inl ⟨hx.1, by simp [St.set, hne x hx.1]⟩
          · right
            rw [hx]
            simp [St.set]
        · simp only [Option.map_eq_some_iff] at h
          obtain ⟨r, h1, h2⟩ := h
          cases h2
          have hd := detach_inv hE h1
          intro x hx
          have hx' : x ∈ s.evict := by
            have := hd.rest.2.2.2.2.2.1
            rw [show (giveBack r.2 r.1).evict = r.2.evict from rfl, this] at hx
            exact hx
          refine .inl ⟨hx', ?_⟩
          show r.2.blocks x.2 = _
          rw [hd.other x.2 (hne x hx'), set_other _ _ (hne x hx')]
    · cases h

/-! The next use. -/

theorem uses_next (rest : List Elem) (i : Nat) : (uses rest).1 i = match nextOp rest i with
    | none => (false, 1)
    | some e => match e.op with
      | .acquire | .acquireUninit => (true, e.time)
      | .deinit => (false, 0)
      | .init => (false, 3)
      | .extract => (false, 2)
      | .release | .releaseDirty => (false, 1) := by
  induction rest with
  | nil => rfl
  | cons e l ih =>
    have hcons : nextOp (e :: l) i = if (e.id == i && e.op != .release && e.op != .releaseDirty) then some e else nextOp l i := by
      simp only [nextOp, List.find?_cons]
      cases (e.id == i && e.op != .release && e.op != .releaseDirty) <;> rfl
    rw [hcons]
    by_cases hi : i = e.id
    · subst hi
      cases ho : e.op <;> simp [uses, ho, ih]
    · have hi' : (e.id == i) = false := by simp [Ne.symm hi]
      rw [hi']
      simp only [Bool.false_and, Bool.false_eq_true, if_false]
      rw [← ih]
      cases ho : e.op <;> simp [uses, ho, hi]

theorem nextAcquire_iff (rest : List Elem) (i t : Nat) : nextAcquire rest i = some t ↔ (uses rest).1 i = (true, t) := by
  rw [uses_next, nextAcquire]
  cases nextOp rest i with
  | none => simp
  | some e => simp only [Option.bind_some]; cases e.op <;> simp

theorem nextAcquire_time {rest : List Elem} {i t : Nat} (h : nextAcquire rest i = some t) : ∃ e ∈ rest, e.id = i ∧ e.time = t := by
  rw [nextAcquire] at h
  cases hn : nextOp rest i with
  | none => rw [hn] at h; simp at h
  | some e =>
    rw [hn] at h
    simp only [Option.bind_some] at h
    have hm := List.mem_of_find?_eq_some hn
    have hp := List.find?_some hn
    simp only [Bool.and_eq_true, beq_iff_eq] at hp
    split at h
    · cases h; exact ⟨e, hm, hp.1.1, rfl⟩
    · cases h

theorem uses_small (rest : List Elem) (i : Nat) (h : (uses rest).1 i = (false, t)) : t ≤ 3 := by
  rw [uses_next] at h
  cases hn : nextOp rest i with
  | none => rw [hn] at h; simp at h; omega
  | some e =>
    rw [hn] at h
    cases ho : e.op <;> simp [ho] at h <;> omega

/-- During the execution of a recorded sequence the stored priorities are those of the next use. -/
structure ExecInv (f : Lfd D) (rest : List Elem) : Prop where
  core : Core f.st none
  ev : Ev f.st
  mode : f.st.mode = .lfd
  next : f.nextUse = (uses rest).2
  prio : ∀ x ∈ f.st.evict, x.1 = prio ((uses rest).1 x.2) (f.st.blocks x.2)

theorem uses_other {e : Elem} {rest : List Elem} {i : Nat} (h : i ≠ e.id) : (uses (e :: rest)).1 i = (uses rest).1 i := by
  simp only [uses]; cases e.op <;> simp [h]

theorem kept_prio {f : Lfd D} {s' : St D} {e : Elem} {rest : List Elem} (h : ExecInv f (e :: rest)) (hk : Kept f.st s') (hn : ∀ x ∈ s'.evict, x.2 ≠ e.id) :
    ∀ x ∈ s'.evict, x.1 = Swap.prio ((uses rest).1 x.2) (s'.blocks x.2) := by
  intro x hx
  obtain ⟨k1, k2⟩ := hk x hx
  rw [k2, h.prio x k1, uses_other (hn x hx)]

theorem release_exec {E : Env D} (hE : ∀ l, E.pick l ∉ l) {f f' : Lfd D} {x : Elem} {rest : List Elem} (h : ExecInv f (x :: rest)) (dirty : Bool)
    (ho : x.op = if dirty then .releaseDirty else .release) (hx : f.release E x.id dirty = some f') : ExecInv f' rest := by
  have hu : (uses (x :: rest)).2 = (uses rest).1 x.id :: (uses rest).2 := by
    simp only [uses, ho]; cases dirty <;> rfl
  have hu1 : (uses (x :: rest)).1 = (uses rest).1 := by
    simp only [uses, ho]; cases dirty <;> rfl
  unfold Lfd.release at hx
  rw [h.next, hu] at hx
  simp only [Option.map_eq_some_iff] at hx
  obtain ⟨s', h1, h2⟩ := hx
  cases h2
  have hs : step E f.st (.release x.id dirty (prio ((uses rest).1 x.id))) = some (.unit, s') := by simp [step, h1]
  obtain ⟨c, ev⟩ := step_core hE h.core h.ev (fun _ _ hc => by cases hc) hs
  refine ⟨c, ev, ?_, rfl, fun y hy => ?_⟩
  · show s'.mode = _
    rw [step_mode (fun _ _ hc => by cases hc) hs]; exact h.mode
  · rcases release_kept hE h.ev h1 y hy with ⟨k1, k2⟩ | k
    · show y.1 = Swap.prio _ (s'.blocks y.2)
      rw [k2, h.prio y k1, hu1]
    · rw [k]

theorem exec_inv {E : Env D} (hE : ∀ l, E.pick l ∉ l) {max : Nat} {f : Lfd D} {rest : List Elem} (h : Exec E max f rest) : ExecInv f rest := by
  induction h with
  | @start s seq h =>
    obtain ⟨c, ev, _⟩ := hist_inv hE h
    have hids : (Lfd.start s seq).st.evict.map (·.2) = s.evict.map (·.2) := by simp [Lfd.start]
    refine ⟨c.evict _ _, ⟨by rw [hids]; exact ev.nd, fun i => by rw [hids]; exact ev.mem i, ev.valid⟩, rfl, rfl, fun x hx => ?_⟩
    simp only [Lfd.start, List.mem_map] at hx
    obtain ⟨y, hy, rfl⟩ := hx
    rfl
  | @exec f x rest f' e h hh hx ih =>
    have acq : ∀ u, (Swap.acquire E f.st x.id u).map (fun r => ({ f with st := r.2 } : Lfd D)) = some f' → x.op = .acquire ∨ x.op = .acquireUninit → ExecInv f' rest := by
      intro u h1 ho
      simp only [Option.map_eq_some_iff] at h1
      obtain ⟨r, h2, h3⟩ := h1
      cases h3
      have hs : step E f.st (.acquire x.id u) = some (.data (r.2.mem r.1), r.2) := by simp [step, h2]
      obtain ⟨c, ev⟩ := step_core hE ih.core ih.ev (fun _ _ hc => by cases hc) hs
      obtain ⟨k1, k2⟩ := acquire_kept hE ih.core ih.ev h2
      refine ⟨c, ev, (step_mode (fun _ _ hc => by cases hc) hs).trans ih.mode, ?_, kept_prio ih k1 k2⟩
      rw [ih.next]
      rcases ho with ho | ho <;> simp [uses, ho]
    cases ho : x.op with
    | acquire => rw [ho] at hx; exact acq false hx (.inl ho)
    | acquireUninit => rw [ho] at hx; exact acq true hx (.inr ho)
    | release => rw [ho] at hx; exact release_exec hE ih false ho hx
    | releaseDirty => rw [ho] at hx; exact release_exec hE ih true ho hx
    | deinit =>
      rw [ho] at hx
      simp only [Lfd.exec, Option.map_eq_some_iff] at hx
      obtain ⟨s', h2, h3⟩ := hx
      cases h3
      have hs : step E f.st (.deinit x.id) = some (.unit, s') := by simp [step, h2]
      obtain ⟨c, ev⟩ := step_core hE ih.core ih.ev (fun _ _ hc => by cases hc) hs
      obtain ⟨k1, k2⟩ := deinit_kept ih.ev h2
      refine ⟨c, ev, (step_mode (fun _ _ hc => by cases hc) hs).trans ih.mode, ?_, kept_prio ih k1 k2⟩
      rw [ih.next]; simp [uses, ho]
    | init =>
      rw [ho] at hx
      simp only [Lfd.exec, Option.map_eq_some_iff] at hx
      obtain ⟨s', h2, h3⟩ := hx
      cases h3
      have hs : step E f.st (.init x.id e) = some (.unit, s') := by simp [step, h2]
      obtain ⟨c, ev⟩ := step_core hE ih.core ih.ev (fun _ b hc => by cases hc; exact hh b ho rfl) hs
      obtain ⟨k1, k2⟩ := init_kept ih.ev h2
      refine ⟨c, ev, (step_mode (fun _ _ hc => by cases hc) hs).trans ih.mode, ?_, kept_prio ih k1 k2⟩
      rw [ih.next]; simp [uses, ho]
    | extract =>
      rw [ho] at hx
      simp only [Lfd.exec, Option.map_eq_some_iff] at hx
      obtain ⟨r, h2, h3⟩ := hx
      cases h3
      have hs : step E f.st (.extract x.id) = some (.ext r.1, r.2) := by simp [step, h2]
      obtain ⟨c, ev⟩ := step_core hE ih.core ih.ev (fun _ _ hc => by cases hc) hs
      obtain ⟨k1, k2⟩ := extract_kept hE ih.core ih.ev h2
      refine ⟨c, ev, (step_mode (fun _ _ hc => by cases hc) hs).trans ih.mode, ?_, kept_prio ih k1 k2⟩
      rw [ih.next]; simp [uses, ho]
  | @other f rest s' r op h ho hr hs ih =>
    obtain ⟨c, ev⟩ := step_core hE ih.core ih.ev (fun id b hc => by rw [hc] at ho; cases ho) hs
    have hk : Kept f.st s' := by
      cases op with
      | write id d =>
        simp only [step, write, Option.map_eq_some_iff] at hs
        obtain ⟨t, h1, h2⟩ := hs
        cases h2
        split at h1
        · cases h1
        · split at h1
          · simp only [Option.map_eq_some_iff] at h1
            obtain ⟨p, _, h4⟩ := h1
            cases h4
            exact fun x hx => ⟨hx, rfl⟩
          · cases h1
      | flush =>
        simp only [step, Option.map_eq_some_iff] at hs
        obtain ⟨t, h1, h2⟩ := hs
        cases h2
        exact flushAux_kept hE _ ih.core ih.ev h1
      | alloc =>
        cases hs
        have hnn : ∀ x ∈ f.st.evict, x.2 ≠ f.st.n := by
          intro x hx hc
          have := (ih.ev.mem x.2).1 (List.mem_map.2 ⟨x, hx, rfl⟩)
          obtain ⟨p, hp⟩ := Option.ne_none_iff_exists'.1 this.1
          have := (ih.core.att x.2 p hp).1
          omega
        unfold alloc
        split
        · exact fun x hx => ⟨hx, by simp [hnn x hx]⟩
        · exact fun x hx => ⟨hx, rfl⟩
      | client d => cases hs; exact fun x hx => ⟨hx, rfl⟩
      | retag m l => exact absurd rfl (hr m l)
      | acquire _ _ => cases ho
      | release _ _ _ => cases ho
      | deinit _ => cases ho
      | init _ _ => cases ho
      | extract _ => cases ho
      | free _ => cases ho
    refine ⟨c, ev, (step_mode hr hs).trans ih.mode, ih.next, fun x hx => ?_⟩
    obtain ⟨k1, k2⟩ := hk x hx
    show x.1 = Swap.prio _ (s'.blocks x.2)
    rw [k2]; exact ih.prio x k1

/-- The block that loses its internal block in an `acquire` is the first in the order of the queue. -/
theorem victim {E : Env D} (hE : ∀ l, E.pick l ∉ l) {s s' : St D} {id p v : Nat} {u : Bool} (hc : Core s none) (he : Ev s) (hm : s.mode = .lfd)
    (h : acquire E s id u = some (p, s')) (hv : (s.blocks v).isInternal = true) (hv' : (s'.blocks v).isInternal = false) :
    ∃ q, (q, v) ∈ s.evict ∧ ∀ y ∈ s.evict, better (q, v) y = true := by
  have hvid : v ≠ id := by
    rintro rfl
    unfold acquire at h
    split at h
    · cases h
    · simp only at h
      split at h
      · rename_i q hq
        cases h
        rw [set_same] at hv'
        simp [SB.isInternal, hq] at hv'
      · rename_i hq
        simp [SB.isInternal, hq] at hv
  unfold acquire at h
  split at h
  · cases h
  · simp only at h
    split at h
    · cases h
      rw [set_other _ _ hvid] at hv'
      have : (if (s.blocks id).isAcquired then s else ({ s with evict := eraseEvict s.evict id } : St D)).blocks = s.blocks := by split <;> rfl
      rw [this, hv] at hv'; cases hv'
    · simp only [Option.map_eq_some_iff] at h
      obtain ⟨r, h1, h2⟩ := h
      cases h2
      have hbr : (bringIn E r.2 id u r.1).blocks v = r.2.blocks v := by simp [bringIn, St.set, hvid]
      rw [hbr] at hv'
      unfold getFree at h1
      have hb : (getFreeBs s).2.blocks = s.blocks ∧ (getFreeBs s).2.evict = s.evict ∧ (getFreeBs s).2.mode = s.mode := by
        unfold getFreeBs; split
        · exact ⟨rfl, rfl, rfl⟩
        · split <;> exact ⟨rfl, rfl, rfl⟩
      cases hg : getFreeBs s with
      | mk o s1 =>
        rw [hg] at h1 hb
        simp only at hb
        obtain ⟨hb1, hb2, hb3⟩ := hb
        cases o with
        | some q =>
          simp only at h1
          cases h1
          simp only [hb1] at hv'
          rw [hv] at hv'; cases hv'
        | none =>
          simp only at h1
          rw [hb2, hb3, hm] at h1
          cases hev : s.evict with
          | nil => rw [hev] at h1; cases h1
          | cons x l =>
            rw [hev] at h1
            simp only [popEvict] at h1
            have hd := detach_inv hE h1
            have hvb : v = (best x l).2 := by
              apply Classical.byContradiction
              intro hne
              have := hd.other v hne
              rw [this] at hv'
              simp only [hb1] at hv'
              rw [hv] at hv'; cases hv'
            refine ⟨(best x l).1, ?_, ?_⟩
            · rw [hvb]; exact best_mem x l
            · rw [hvb]; exact best_better x l

end Foxxll.Swap
