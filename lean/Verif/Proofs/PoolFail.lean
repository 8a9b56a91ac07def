/-
Helper lemmas for C121-C124: the pools with failing requests.
-/
import Verif.Model.PoolFail
import Verif.Proofs.Pools

namespace Foxxll.PoolFail

/-- Blocks without a request. -/
def idle (s : St) : List Nat := s.wfree ++ s.pfree ++ s.uidle ++ s.deleted
/-- Blocks with their requests. -/
def ents (s : St) : List (Nat × Nat) :=
  s.wbusy.map (fun e => (e.blk, e.req)) ++ s.pbusy.map (fun e => (e.blk, e.req)) ++ s.upend.map (fun e => (e.blk, e.req))

/-- `X` are blocks in local variables. -/
structure Inv (X : List Nat) (s : St) : Prop where
  cnt : ∀ a, (idle s).count a + X.count a + ((ents s).map (·.1)).count a + s.leaked.count a = if a < s.nextBlk then 1 else 0
  own : ∀ x ∈ s.q, (x.2, x.1) ∈ ents s ∨ x.2 ∈ s.leaked

theorem pending_iff (s : St) (r : Nat) : pending s r = true ↔ ∃ x ∈ s.q, x.1 = r := by simp [pending]
theorem not_pending {s : St} {r : Nat} (h : pending s r = false) : ∀ x ∈ s.q, x.1 ≠ r := by
  intro x hx hr
  have : pending s r = true := (pending_iff s r).2 ⟨x, hx, hr⟩
  rw [h] at this; cases this

/-! ### Events -/

theorem event_frame (s : St) (e : Ev) : ∃ q' err', event s e = { s with q := q', err := err' } ∧ (∀ x ∈ q', x ∈ s.q) ∧
    (∀ r ∈ s.err, r ∈ err') := by
  cases e with
  | fail r =>
    simp only [event]; split
    · exact ⟨s.q, r :: s.err, rfl, fun x hx => hx, fun x hx => List.mem_cons_of_mem _ hx⟩
    · exact ⟨s.q, s.err, rfl, fun x hx => hx, fun x hx => hx⟩
  | finish r => exact ⟨_, s.err, rfl, fun x hx => (List.mem_filter.1 hx).1, fun x hx => hx⟩

theorem events_frame (s : St) (l : List Ev) : ∃ q' err', events s l = { s with q := q', err := err' } ∧ (∀ x ∈ q', x ∈ s.q) ∧
    (∀ r ∈ s.err, r ∈ err') := by
  induction l generalizing s with
  | nil => exact ⟨s.q, s.err, rfl, fun x hx => hx, fun x hx => hx⟩
  | cons e l ih =>
    obtain ⟨q1, e1, h1, hq1, he1⟩ := event_frame s e
    obtain ⟨q2, e2, h2, hq2, he2⟩ := ih (event s e)
    refine ⟨q2, e2, ?_, fun x hx => ?_, fun r hr => ?_⟩
    · show events (event s e) l = _
      rw [h2, h1]
    · have := hq2 x hx; rw [h1] at this; exact hq1 x this
    · apply he2; rw [h1]; exact he1 r hr

theorem Inv.setq {X : List Nat} {s : St} (h : Inv X s) {q' : List (Nat × Nat)} {err' : List Nat} (hq : ∀ x ∈ q', x ∈ s.q) :
    Inv X { s with q := q', err := err' } := ⟨h.cnt, fun x hx => h.own x (hq x hx)⟩

theorem Inv.event {X : List Nat} {s : St} (h : Inv X s) (e : Ev) : Inv X (event s e) := by
  obtain ⟨q', err', h1, hq, _⟩ := event_frame s e
  rw [h1]; exact h.setq hq

theorem Inv.events {X : List Nat} {s : St} (h : Inv X s) (l : List Ev) : Inv X (events s l) := by
  obtain ⟨q', err', h1, hq, _⟩ := events_frame s l
  rw [h1]; exact h.setq hq

/-! ### The general change -/

/-- Blocks with a finished request are in no transfer. -/
theorem Inv.free {X : List Nat} {s : St} (h : Inv X s) {b r : Nat} (hb : (b, r) ∈ ents s) (hp : pending s r = false) :
    ∀ x ∈ s.q, x.2 ≠ b := by
  intro x hx hxb
  have hc := h.cnt b
  have h1 : 0 < ((ents s).map (·.1)).count b := List.count_pos_iff.2 (List.mem_map.2 ⟨_, hb, rfl⟩)
  rcases h.own x hx with ho | ho
  · rw [hxb] at ho
    have hr : x.1 = r := by
      apply Classical.byContradiction
      intro hne
      have hperm : (ents s).Perm ((b, r) :: (ents s).erase (b, r)) := List.perm_cons_erase hb
      have h2 : (b, x.1) ∈ (ents s).erase (b, r) := (List.mem_erase_of_ne (by intro hh; exact hne (Prod.mk.inj hh).2)).2 ho
      have h3 : ((ents s).map (·.1)).count b = 1 + (((ents s).erase (b, r)).map (·.1)).count b := by
        rw [(hperm.map (·.1)).count_eq b]; simp; omega
      have h4 : 0 < (((ents s).erase (b, r)).map (·.1)).count b := List.count_pos_iff.2 (List.mem_map.2 ⟨_, h2, rfl⟩)
      split at hc <;> omega
    exact not_pending hp x hx hr
  · rw [hxb] at ho
    have h2 : 0 < s.leaked.count b := List.count_pos_iff.2 ho
    split at hc <;> omega

theorem count_range' (n d a : Nat) : (List.range' n d).count a = if n ≤ a ∧ a < n + d then 1 else 0 := by
  have hnd : (List.range' n d).Nodup := List.nodup_range'
  split
  · rename_i h
    exact hnd.count (a := a) |>.trans (by simp [List.mem_range'_1, h])
  · rename_i h
    apply List.count_eq_zero.2
    simp [List.mem_range'_1]; omega

/-- `F`: entries that end, `N`: entries that begin, `E`: entries that stay. -/
theorem Inv.change {X X' : List Nat} {s s' : St} (h : Inv X s) (E F N : List (Nat × Nat)) (d : Nat)
    (hE : (ents s).Perm (F ++ E)) (hE' : (ents s').Perm (N ++ E)) (hn : s'.nextBlk = s.nextBlk + d)
    (hc : ∀ a, (idle s').count a + X'.count a + (N.map (·.1)).count a + s'.leaked.count a =
      (idle s).count a + X.count a + (F.map (·.1)).count a + s.leaked.count a + (List.range' s.nextBlk d).count a)
    (hq : ∀ x ∈ s'.q, x ∈ s.q ∨ (x.2, x.1) ∈ N)
    (hl : ∀ b ∈ s.leaked, b ∈ s'.leaked)
    (hF : ∀ f ∈ F, pending s f.2 = false ∨ f.1 ∈ s'.leaked ∨ f ∈ N) : Inv X' s' := by
  constructor
  · intro a
    have h1 := h.cnt a
    have h2 := hc a
    have h3 := (hE.map (·.1)).count_eq a
    have h4 := (hE'.map (·.1)).count_eq a
    rw [List.map_append, List.count_append] at h3 h4
    rw [count_range'] at h2
    rw [hn]
    split at h1 <;> split at h2 <;> split <;> omega
  · intro x hx
    rcases hq x hx with hx1 | hx1
    · rcases h.own x hx1 with ho | ho
      · rcases List.mem_append.1 (hE.mem_iff.1 ho) with ho' | ho'
        · rcases hF _ ho' with hf | hf | hf
          · exact absurd rfl (h.free ho hf x hx1)
          · exact Or.inr hf
          · exact Or.inl (hE'.mem_iff.2 (List.mem_append.2 (Or.inl hf)))
        · exact Or.inl (hE'.mem_iff.2 (List.mem_append.2 (Or.inr ho')))
      · exact Or.inr (hl _ ho)
    · exact Or.inl (hE'.mem_iff.2 (List.mem_append.2 (Or.inl hx1)))

/-- Only blocks without requests move. -/
theorem Inv.move {X X' : List Nat} {s s' : St} (h : Inv X s) (d : Nat) (he : ents s' = ents s) (hn : s'.nextBlk = s.nextBlk + d)
    (hq : s'.q = s.q) (hl : ∀ b ∈ s.leaked, b ∈ s'.leaked)
    (hc : ∀ a, (idle s').count a + X'.count a + s'.leaked.count a =
      (idle s).count a + X.count a + s.leaked.count a + (List.range' s.nextBlk d).count a) : Inv X' s' :=
  h.change (ents s) [] [] d (by simp) (by simp [he]) hn (by intro a; have := hc a; simp only [List.map_nil, List.count_nil]; omega)
    (fun x hx => Or.inl (hq ▸ hx)) hl (by simp)

theorem getLast?_count {l : List Nat} {p : Nat} (h : l.getLast? = some p) (a : Nat) :
    l.count a = l.dropLast.count a + [p].count a := by
  have : l = l.dropLast ++ [p] := by
    have hne : l ≠ [] := by intro hh; rw [hh] at h; simp at h
    rw [List.getLast?_eq_some_getLast hne] at h
    have := List.dropLast_concat_getLast hne
    rw [Option.some.inj h] at this
    exact this.symm
  conv => lhs; rw [this, List.count_append]

theorem erase_count {l : List Nat} {b : Nat} (h : b ∈ l) (a : Nat) : l.count a = (l.erase b).count a + [b].count a := by
  have := (List.perm_cons_erase h).count_eq a
  rw [this, show b :: l.erase b = [b] ++ l.erase b from rfl, List.count_append]; omega

theorem perm_eraseIdx {α : Type} {l : List α} {i : Nat} {e : α} (h : l[i]? = some e) : l.Perm (e :: l.eraseIdx i) := by
  obtain ⟨hi, he⟩ := List.getElem?_eq_some_iff.1 h
  rw [← he]; exact (Foxxll.Pool.getElem_cons_eraseIdx hi).symm

/-! ### Write pool -/

theorem scan_spec (s : St) (evs : List (List Ev)) (l : List WEnt) (i : Nat) :
    ∃ q' err', (scan s evs l i).1 = { s with q := q', err := err' } ∧ (∀ x ∈ q', x ∈ s.q) ∧
      (∀ r ∈ s.err, r ∈ err') ∧
      ∀ j, (scan s evs l i).2.2 = .found j → ∃ k e, j = i + k ∧ l[k]? = some e ∧ pending (scan s evs l i).1 e.req = false ∧
        failed (scan s evs l i).1 e.req = false := by
  induction l generalizing s evs i with
  | nil => exact ⟨s.q, s.err, rfl, fun x hx => hx, fun x hx => hx, by simp [scan]⟩
  | cons e l ih =>
    obtain ⟨q1, e1, h1, hq1, he1⟩ := events_frame s (evs.headD [])
    simp only [scan]
    by_cases hf : failed (events s (evs.headD [])) e.req = true
    · rw [if_pos hf]
      exact ⟨q1, e1, h1, hq1, he1, by simp⟩
    · rw [if_neg hf]
      by_cases hp : pending (events s (evs.headD [])) e.req = true
      · rw [if_pos hp]
        obtain ⟨q2, e2, h2, hq2, he2, hj⟩ := ih (events s (evs.headD [])) evs.tail (i + 1)
        refine ⟨q2, e2, ?_, fun x hx => ?_, fun r hr => ?_, fun j hh => ?_⟩
        · rw [h2, h1]
        · have := hq2 x hx; rw [h1] at this; exact hq1 x this
        · apply he2; rw [h1]; exact he1 r hr
        · obtain ⟨k, e', hk, hl, hp', hf'⟩ := hj j hh
          exact ⟨k + 1, e', by omega, by simpa using hl, hp', hf'⟩
      · rw [if_neg hp]
        refine ⟨q1, e1, h1, hq1, he1, fun j hh => ⟨0, e, ?_, rfl, ?_, ?_⟩⟩
        · injection hh with hh; omega
        · simpa using hp
        · simpa using hf

theorem waitAny_spec (s : St) (evs : List (List Ev)) :
    ∃ q' err', (waitAny s evs).1 = { s with q := q', err := err' } ∧ (∀ x ∈ q', x ∈ s.q) ∧
      (∀ r ∈ s.err, r ∈ err') ∧
      ∀ j, (waitAny s evs).2.2 = .found j → ∃ e, s.wbusy[j]? = some e ∧ pending (waitAny s evs).1 e.req = false ∧
        failed (waitAny s evs).1 e.req = false := by
  obtain ⟨q1, e1, h1, hq1, he1, hj1⟩ := scan_spec s evs s.wbusy 0
  unfold waitAny
  rcases hr : scan s evs s.wbusy 0 with ⟨s1, evs1, sc⟩
  rw [hr] at h1 hj1
  simp only at h1 hj1
  cases sc with
  | none =>
    simp only
    obtain ⟨q2, e2, h2, hq2, he2⟩ := events_frame s1 (evs1.headD [])
    obtain ⟨q3, e3, h3, hq3, he3, hj3⟩ := scan_spec (events s1 (evs1.headD [])) evs1.tail s.wbusy 0
    refine ⟨q3, e3, ?_, fun x hx => ?_, fun r hr => ?_, fun j hh => ?_⟩
    · rw [h3, h2, h1]
    · have := hq3 x hx; rw [h2] at this; have := hq2 x this; rw [h1] at this; exact hq1 x this
    · apply he3; rw [h2]; apply he2; rw [h1]; exact he1 r hr
    · obtain ⟨k, e, hk, hl, hp, hf⟩ := hj3 j hh
      have : j = k := by omega
      subst this
      exact ⟨e, hl, hp, hf⟩
  | found i =>
    refine ⟨q1, e1, h1, hq1, he1, fun j hh => ?_⟩
    obtain ⟨k, e, hk, hl, hp, hf⟩ := hj1 j hh
    have : j = k := by omega
    subst this
    exact ⟨e, hl, hp, hf⟩
  | threw => exact ⟨q1, e1, h1, hq1, he1, by simp⟩

/-- `s'` is `s` with another `q`, `err`, `wfree` and `wbusy`. -/
def SameButW (s s' : St) : Prop :=
  ∃ q' err' wf wb, s' = { s with q := q', err := err', wfree := wf, wbusy := wb } ∧ (∀ r ∈ s.err, r ∈ err')

theorem SameButW.refl (s : St) : SameButW s s := ⟨s.q, s.err, s.wfree, s.wbusy, rfl, fun _ h => h⟩
theorem SameButW.trans {s t u : St} (h1 : SameButW s t) (h2 : SameButW t u) : SameButW s u := by
  obtain ⟨q1, e1, f1, b1, rfl, he1⟩ := h1
  obtain ⟨q2, e2, f2, b2, rfl, he2⟩ := h2
  exact ⟨q2, e2, f2, b2, rfl, fun r hr => he2 r (he1 r hr)⟩
theorem SameButW.events (s : St) (l : List Ev) : SameButW s (events s l) := by
  obtain ⟨q1, e1, h1, _, he⟩ := events_frame s l
  exact ⟨q1, e1, s.wfree, s.wbusy, h1, he⟩

theorem checkBusy_frame (s s' : St) (evs : List (List Ev)) (pre l : List WEnt)
    (hs : checkBusy s evs pre l = .ok s' ∨ checkBusy s evs pre l = .throw s') : SameButW s s' := by
  induction l generalizing s evs pre with
  | nil =>
    rcases hs with hs | hs <;> simp only [checkBusy] at hs
    · injection hs with hs; subst hs; exact ⟨s.q, s.err, s.wfree, pre, rfl, fun _ h => h⟩
    · cases hs
  | cons e l ih =>
    have h1 := SameButW.events s (evs.headD [])
    simp only [checkBusy] at hs
    by_cases hf : failed (events s (evs.headD [])) e.req = true
    · rw [if_pos hf] at hs
      rcases hs with hs | hs
      · cases hs
      · injection hs with hs; subst hs
        exact h1.trans ⟨_, _, _, _, rfl, fun _ h => h⟩
    · rw [if_neg hf] at hs
      by_cases hp : pending (events s (evs.headD [])) e.req = true
      · rw [if_pos hp] at hs; exact h1.trans (ih _ _ _ hs)
      · rw [if_neg hp] at hs
        refine (h1.trans ?_).trans (ih _ _ _ hs)
        exact ⟨_, _, _, _, rfl, fun _ h => h⟩

theorem checkBusy_inv {X : List Nat} (s s' : St) (evs : List (List Ev)) (pre l : List WEnt)
    (h : Inv X { s with wbusy := pre ++ l })
    (hs : checkBusy s evs pre l = .ok s' ∨ checkBusy s evs pre l = .throw s') : Inv X s' := by
  induction l generalizing s evs pre with
  | nil =>
    rcases hs with hs | hs <;> simp only [checkBusy] at hs
    · injection hs with hs; subst hs; simpa using h
    · cases hs
  | cons e l ih =>
    have h1 : Inv X { events s (evs.headD []) with wbusy := pre ++ e :: l } := by
      obtain ⟨q', err', hf, hq, _⟩ := events_frame s (evs.headD [])
      rw [hf]; exact h.setq hq
    simp only [checkBusy] at hs
    by_cases hf : failed (events s (evs.headD [])) e.req = true
    · rw [if_pos hf] at hs
      rcases hs with hs | hs
      · cases hs
      · injection hs with hs; subst hs; exact h1
    · rw [if_neg hf] at hs
      by_cases hp : pending (events s (evs.headD [])) e.req = true
      · rw [if_pos hp] at hs
        exact ih _ _ _ (by simpa using h1) hs
      · rw [if_neg hp] at hs
        refine ih _ _ _ ?_ hs
        generalize events s (evs.headD []) = t at h1 hp
        refine h1.change (s' := { t with wfree := t.wfree ++ [e.blk], wbusy := pre ++ l })
          ((pre ++ l).map (fun e => (e.blk, e.req)) ++ t.pbusy.map (fun e => (e.blk, e.req)) ++ t.upend.map (fun e => (e.blk, e.req)))
          [(e.blk, e.req)] [] 0 ?_ ?_ rfl ?_ (fun x hx => Or.inl hx) (fun b hb => hb) ?_
        · have : (pre ++ e :: l).Perm (e :: (pre ++ l)) := List.perm_middle
          have := this.map (fun e => (e.blk, e.req))
          simp only [ents]
          rw [List.append_assoc, List.append_assoc]
          exact this.append_right _
        · simp [ents]
        · intro a
          simp only [idle, List.count_append, List.map_cons, List.map_nil, List.count_nil, List.range'_zero]
          omega
        · intro f hf'
          simp only [List.mem_singleton] at hf'
          subst hf'
          exact Or.inl (by rw [Bool.not_eq_true] at hp; exact hp)

theorem wsteal_inv {s s' : St} {evs : List (List Ev)} {p : Nat} (h : Inv [] s) (hs : wsteal s evs = .ok (s', p)) : Inv [p] s' := by
  unfold wsteal at hs
  split at hs
  · cases hs
  · split at hs
    · rename_i p' hp
      injection hs with hs
      obtain ⟨rfl, rfl⟩ := Prod.mk.inj hs
      refine h.move 0 rfl rfl rfl (fun b hb => hb) ?_
      intro a
      have := getLast?_count hp a
      simp only [idle, List.count_append, List.count_nil, List.range'_zero]
      omega
    · obtain ⟨q', err', hw, hq, _, hj⟩ := waitAny_spec s evs
      split at hs
      · cases hs
      · cases hs
      · rename_i s1 evs1 i hwa
        rw [hwa] at hw hj
        simp only at hw hj
        obtain ⟨e, he, hp, hf⟩ := hj i rfl
        have hb1 : s1.wbusy = s.wbusy := by rw [hw]
        rw [hb1, he] at hs
        simp only at hs
        have h1 : Inv [] s1 := by rw [hw]; exact h.setq hq
        have h2 : Inv [e.blk] { s1 with wbusy := s.wbusy.eraseIdx i } := by
          refine h1.change
            ((s.wbusy.eraseIdx i).map (fun e => (e.blk, e.req)) ++ s1.pbusy.map (fun e => (e.blk, e.req)) ++ s1.upend.map (fun e => (e.blk, e.req)))
            [(e.blk, e.req)] [] 0 ?_ ?_ rfl ?_ (fun x hx => Or.inl hx) (fun b hb => hb) ?_
          · have := (perm_eraseIdx he).map (fun e => (e.blk, e.req))
            simp only [ents, hb1]
            rw [List.append_assoc, List.append_assoc]
            exact this.append_right _
          · simp [ents]
          · intro a
            simp only [idle, List.count_append, List.map_cons, List.map_nil, List.count_nil, List.range'_zero]
            omega
          · intro f hf'
            simp only [List.mem_singleton] at hf'
            subst hf'
            exact Or.inl hp
        split at hs
        · rename_i s2 hc
          injection hs with hs
          obtain ⟨rfl, rfl⟩ := Prod.mk.inj hs
          exact checkBusy_inv s1 _ _ [] _ (by simpa using h2) (Or.inl hc)
        all_goals cases hs

theorem wsteal_inv_throw {s s' : St} {evs : List (List Ev)} (h : Inv [] s) (hs : wsteal s evs = .throw s') : Inv [] s' := by
  unfold wsteal at hs
  split at hs
  · cases hs
  · split at hs
    · cases hs
    · obtain ⟨q', err', hw, hq, _, hj⟩ := waitAny_spec s evs
      split at hs
      · cases hs
      · rename_i s1 evs1 hwa
        injection hs with hs; subst hs
        rw [hwa] at hw
        simp only at hw
        rw [hw]; exact h.setq hq
      · rename_i s1 evs1 i hwa
        rw [hwa] at hw hj
        simp only at hw hj
        obtain ⟨e, he, hp, hf⟩ := hj i rfl
        have hb1 : s1.wbusy = s.wbusy := by rw [hw]
        rw [hb1, he] at hs
        simp only at hs
        have h1 : Inv [] s1 := by rw [hw]; exact h.setq hq
        have h2 : Inv [e.blk] { s1 with wbusy := s.wbusy.eraseIdx i } := by
          refine h1.change
            ((s.wbusy.eraseIdx i).map (fun e => (e.blk, e.req)) ++ s1.pbusy.map (fun e => (e.blk, e.req)) ++ s1.upend.map (fun e => (e.blk, e.req)))
            [(e.blk, e.req)] [] 0 ?_ ?_ rfl ?_ (fun x hx => Or.inl hx) (fun b hb => hb) ?_
          · have := (perm_eraseIdx he).map (fun e => (e.blk, e.req))
            simp only [ents, hb1]
            rw [List.append_assoc, List.append_assoc]
            exact this.append_right _
          · simp [ents]
          · intro a
            simp only [idle, List.count_append, List.map_cons, List.map_nil, List.count_nil, List.range'_zero]
            omega
          · intro f hf'
            simp only [List.mem_singleton] at hf'
            subst hf'
            exact Or.inl hp
        split at hs
        · cases hs
        · rename_i s2 hc
          injection hs with hs; subst hs
          have h3 : Inv [e.blk] s2 := checkBusy_inv s1 _ _ [] _ (by simpa using h2) (Or.inr hc)
          refine h3.move 0 rfl rfl rfl (fun b hb => List.mem_append.2 (Or.inl hb)) ?_
          intro a
          simp only [idle, List.count_append, List.count_nil, List.range'_zero]
          omega
        all_goals cases hs

theorem stealN_inv {s s' : St} {evss : List (List (List Ev))} {k : Nat} (h : Inv [] s)
    (hs : stealN s evss k = .ok s' ∨ stealN s evss k = .throw s') : Inv [] s' := by
  induction k generalizing s evss with
  | zero =>
    rcases hs with hs | hs <;> simp only [stealN] at hs
    · injection hs with hs; subst hs; exact h
    · cases hs
  | succ k ih =>
    simp only [stealN] at hs
    cases hw : wsteal s (evss.headD []) with
    | ok r =>
      obtain ⟨s1, p⟩ := r
      rw [hw] at hs; simp only at hs
      refine ih ?_ hs
      refine (wsteal_inv h hw).move 0 rfl rfl rfl (fun b hb => hb) ?_
      intro a
      simp only [idle, List.count_append, List.count_nil, List.range'_zero]
      omega
    | throw s1 =>
      rw [hw] at hs
      rcases hs with hs | hs
      · cases hs
      · injection hs with hs; subst hs; exact wsteal_inv_throw h hw
    | blocked => rw [hw] at hs; rcases hs with hs | hs <;> cases hs
    | assertFail => rw [hw] at hs; rcases hs with hs | hs <;> cases hs
    | die => rw [hw] at hs; rcases hs with hs | hs <;> cases hs
    | ub => rw [hw] at hs; rcases hs with hs | hs <;> cases hs

theorem wresize_inv {s s' : St} {n k : Nat} {evss : List (List (List Ev))} (h : Inv [] s)
    (hs : wresize s n k evss = .ok s' ∨ wresize s n k evss = .throw s') : Inv [] s' := by
  unfold wresize at hs
  split at hs
  · simp only at hs
    split at hs
    · rcases hs with hs | hs
      · cases hs
      · injection hs with hs; subst hs
        refine h.move k rfl rfl rfl (fun b hb => hb) ?_
        intro a
        simp only [idle, List.count_append, List.count_nil]
        omega
    · rcases hs with hs | hs
      · injection hs with hs; subst hs
        refine h.move (n - wsize s) rfl rfl rfl (fun b hb => hb) ?_
        intro a
        simp only [idle, List.count_append, List.count_nil]
        omega
      · cases hs
  · exact stealN_inv h hs

/-! ### Prefetch pool -/

theorem findP_mem {s : St} {b : Nat} {e : PEnt} (h : findP s b = some e) : e ∈ s.pbusy ∧ e.bid = b :=
  ⟨List.mem_of_find?_eq_some h, by simpa using List.find?_some h⟩
theorem findW_mem {s : St} {b : Nat} {e : WEnt} (h : findW s b = some e) : e ∈ s.wbusy ∧ e.bid = some b :=
  ⟨List.mem_of_find?_eq_some h, by simpa using List.find?_some h⟩

theorem hint_inv {s s' : St} {bid : Nat} {useW sub : Bool} (h : Inv [] s)
    (hs : hint s bid useW sub = .ok s' ∨ hint s bid useW sub = .throw s') : Inv [] s' := by
  unfold hint at hs
  split at hs
  · rcases hs with hs | hs
    · injection hs with hs; subst hs; exact h
    · cases hs
  · split at hs
    · rcases hs with hs | hs
      · injection hs with hs; subst hs; exact h
      · cases hs
    · split at hs
      · rcases hs with hs | hs <;> cases hs
      · rename_i blk hp
        simp only at hs
        have hg := getLast?_count hp
        split at hs
        · rename_i e hw
          rcases hs with hs | hs
          · injection hs with hs; subst hs
            have he : e ∈ s.wbusy := by
              by_cases hu : useW = true
              · rw [if_pos hu] at hw; exact (findW_mem hw).1
              · rw [if_neg hu] at hw; cases hw
            refine h.change
              ((s.wbusy.erase e).map (fun e => (e.blk, e.req)) ++ s.pbusy.map (fun e => (e.blk, e.req)) ++ s.upend.map (fun e => (e.blk, e.req)))
              [(e.blk, e.req)] [(e.blk, e.req)] 0 ?_ ?_ rfl ?_ (fun x hx => Or.inl hx) (fun b hb => hb) ?_
            · have := (List.perm_cons_erase he).map (fun e => (e.blk, e.req))
              simp only [ents]
              rw [List.append_assoc, List.append_assoc]
              exact this.append_right _
            · simp only [ents, List.map_append, List.map_cons, List.map_nil]
              apply List.perm_iff_count.2; intro a
              simp only [List.count_append]; omega
            · intro a
              have := hg a
              simp only [idle, List.count_append, List.count_nil, List.range'_zero]
              omega
            · intro f hf; exact Or.inr (Or.inr hf)
          · cases hs
        · split at hs
          · rcases hs with hs | hs
            · cases hs
            · injection hs with hs; subst hs
              refine h.move 0 rfl rfl rfl (fun b hb => List.mem_append.2 (Or.inl hb)) ?_
              intro a
              have := hg a
              simp only [idle, List.count_append, List.count_nil, List.range'_zero]
              omega
          · rcases hs with hs | hs
            · injection hs with hs; subst hs
              refine h.change (ents s) [] [(blk, s.nextReq)] 0 (by simp) ?_ rfl ?_ ?_ (fun b hb => hb) (by simp)
              · simp only [ents, submit, List.map_append, List.map_cons, List.map_nil]
                apply List.perm_iff_count.2; intro a
                simp only [List.count_append]; omega
              · intro a
                have := hg a
                simp only [idle, submit, List.count_append, List.count_nil, List.range'_zero, List.map_cons, List.map_nil]
                omega
              · intro x hx
                simp only [submit, List.mem_append, List.mem_singleton] at hx
                rcases hx with hx | hx
                · exact Or.inl hx
                · subst hx; exact Or.inr (List.mem_singleton.2 rfl)
            · cases hs

theorem cancel_frame (s : St) (r : Nat) (c : Bool) : ∃ q', cancel s r c = { s with q := q' } ∧ (∀ x ∈ q', x ∈ s.q) := by
  unfold cancel; split
  · exact ⟨_, rfl, fun x hx => (List.mem_filter.1 hx).1⟩
  · exact ⟨s.q, rfl, fun x hx => hx⟩

/-- State of `invalidate` after the wait. -/
theorem inval_frame (s : St) (e : PEnt) (canc : Bool) (evs : List Ev) :
    ∃ q' err', events (if e.rd = true then cancel s e.req canc else s) evs = { s with q := q', err := err' } ∧ (∀ x ∈ q', x ∈ s.q) ∧
      (∀ r ∈ s.err, r ∈ err') := by
  have h0 : ∃ q', (if e.rd = true then cancel s e.req canc else s) = { s with q := q' } ∧ (∀ x ∈ q', x ∈ s.q) := by
    split
    · exact cancel_frame s e.req canc
    · exact ⟨s.q, rfl, fun x hx => hx⟩
  obtain ⟨q1, h1, hq1⟩ := h0
  obtain ⟨q2, e2, h2, hq2, he2⟩ := events_frame (if e.rd = true then cancel s e.req canc else s) evs
  refine ⟨q2, e2, by rw [h2, h1], fun x hx => ?_, fun r hr => ?_⟩
  · have := hq2 x hx; rw [h1] at this; exact hq1 x this
  · apply he2; rw [h1]; exact hr

theorem erasePerm {s : St} {e : PEnt} (he : e ∈ s.pbusy) :
    (ents s).Perm ([(e.blk, e.req)] ++ (s.wbusy.map (fun e => (e.blk, e.req)) ++ (s.pbusy.erase e).map (fun e => (e.blk, e.req)) ++
      s.upend.map (fun e => (e.blk, e.req)))) := by
  have := (List.perm_cons_erase he).map (fun e => (e.blk, e.req))
  apply List.perm_iff_count.2; intro a
  have := this.count_eq a
  simp only [ents, List.count_append]
  rw [this, List.map_cons, show ∀ (x : Nat × Nat) l, x :: l = [x] ++ l from fun _ _ => rfl, List.count_append]; omega

theorem erasePermW {s : St} {e : WEnt} (he : e ∈ s.wbusy) :
    (ents s).Perm ([(e.blk, e.req)] ++ ((s.wbusy.erase e).map (fun e => (e.blk, e.req)) ++ s.pbusy.map (fun e => (e.blk, e.req)) ++
      s.upend.map (fun e => (e.blk, e.req)))) := by
  have := (List.perm_cons_erase he).map (fun e => (e.blk, e.req))
  simp only [ents]
  rw [List.append_assoc, List.append_assoc]
  exact this.append_right _

theorem invalidate_inv {s s' : St} {bid : Nat} {canc b : Bool} {evs : List Ev} (h : Inv [] s)
    (hs : invalidate s bid canc evs = .ok (s', b) ∨ invalidate s bid canc evs = .throw s') : Inv [] s' := by
  unfold invalidate at hs
  split at hs
  · rcases hs with hs | hs
    · injection hs with hs; obtain ⟨rfl, rfl⟩ := Prod.mk.inj hs; exact h
    · cases hs
  · rename_i e he
    obtain ⟨q', err', h1, hq, _⟩ := inval_frame s e canc evs
    simp only [h1] at hs
    have h2 : Inv [] { s with q := q', err := err' } := h.setq hq
    split at hs
    · rcases hs with hs | hs <;> cases hs
    · rename_i hp
      split at hs
      · rcases hs with hs | hs
        · cases hs
        · injection hs with hs; subst hs; exact h2
      · rcases hs with hs | hs
        · injection hs with hs; obtain ⟨rfl, rfl⟩ := Prod.mk.inj hs
          refine h2.change _ [(e.blk, e.req)] [] 0 (erasePerm (findP_mem he).1) ?_ rfl ?_ (fun x hx => Or.inl hx) (fun b hb => hb) ?_
          · simp [ents]
          · intro a
            simp only [idle, List.count_append, List.map_cons, List.map_nil, List.count_nil, List.range'_zero]
            omega
          · intro f hf
            simp only [List.mem_singleton] at hf; subst hf
            exact Or.inl (by simpa using hp)
        · cases hs

theorem dropStale_inv {X : List Nat} {s : St} (h : Inv X s) (bid : Nat) (canc : List Nat) : Inv X (dropStale s bid canc) := by
  have he : ents (dropStale s bid canc) = ents s := by
    simp only [ents, dropStale, List.map_map]
    congr 2
    apply List.map_congr_left
    intro e _
    simp only [Function.comp]
    split <;> rfl
  constructor
  · intro a; have := h.cnt a; rw [he]; exact this
  · intro x hx; rw [he]; exact h.own x (List.mem_filter.1 hx).1

theorem wwrite_inv {s s' : St} {blk bid : Nat} {canc : List Nat} {sub : Bool} (h : Inv [] s) (hb : blk ∈ s.uidle)
    (hs : wwrite s blk bid canc sub = .ok s' ∨ wwrite s blk bid canc sub = .throw s') : Inv [] s' := by
  unfold wwrite at hs
  have h1 := dropStale_inv h bid canc
  have hb1 : blk ∈ (dropStale s bid canc).uidle := hb
  generalize dropStale s bid canc = t at h1 hs hb1
  split at hs
  · rcases hs with hs | hs <;> cases hs
  · simp only at hs
    split at hs
    · rcases hs with hs | hs
      · cases hs
      · injection hs with hs; subst hs; exact h1
    · rcases hs with hs | hs
      · injection hs with hs; subst hs
        refine h1.change (ents t) [] [(blk, t.nextReq)] 0 (by simp) ?_ rfl ?_ ?_ (fun b hb => hb) (by simp)
        · simp only [ents, submit, List.map_append, List.map_cons, List.map_nil]
          apply List.perm_iff_count.2; intro a
          simp only [List.count_append]; omega
        · intro a
          have := erase_count hb1 a
          simp only [idle, submit, List.count_append, List.count_nil, List.range'_zero, List.map_cons, List.map_nil]
          omega
        · intro x hx
          simp only [submit, List.mem_append, List.mem_singleton] at hx
          rcases hx with hx | hx
          · exact Or.inl hx
          · subst hx; exact Or.inr (List.mem_singleton.2 rfl)
      · cases hs

theorem write_inv {s s' : St} {blk bid : Nat} {cw : List Nat} {sw cp sp : Bool} {evs : List Ev} (h : Inv [] s) (hb : blk ∈ s.uidle)
    (hs : write s blk bid cw sw cp evs sp = .ok s' ∨ write s blk bid cw sw cp evs sp = .throw s') : Inv [] s' := by
  unfold write at hs
  cases hw : wwrite s blk bid cw sw with
  | ok s1 =>
    have h1 := wwrite_inv h hb (Or.inl hw)
    rw [hw] at hs; simp only at hs
    cases hi : invalidate s1 bid cp evs with
    | ok r =>
      obtain ⟨s2, b⟩ := r
      have h2 := invalidate_inv h1 (Or.inl hi)
      rw [hi] at hs
      cases b with
      | true => exact hint_inv h2 hs
      | false =>
        simp only at hs
        rcases hs with hs | hs
        · injection hs with hs; subst hs; exact h2
        · cases hs
    | throw s2 =>
      have h2 := invalidate_inv (b := false) h1 (Or.inr hi)
      rw [hi] at hs
      rcases hs with hs | hs
      · cases hs
      · injection hs with hs; subst hs; exact h2
    | blocked => rw [hi] at hs; rcases hs with hs | hs <;> cases hs
    | assertFail => rw [hi] at hs; rcases hs with hs | hs <;> cases hs
    | die => rw [hi] at hs; rcases hs with hs | hs <;> cases hs
    | ub => rw [hi] at hs; rcases hs with hs | hs <;> cases hs
  | throw s1 =>
    have h1 := wwrite_inv h hb (Or.inr hw)
    rw [hw] at hs
    rcases hs with hs | hs
    · cases hs
    · injection hs with hs; subst hs; exact h1
  | blocked => rw [hw] at hs; rcases hs with hs | hs <;> cases hs
  | assertFail => rw [hw] at hs; rcases hs with hs | hs <;> cases hs
  | die => rw [hw] at hs; rcases hs with hs | hs <;> cases hs
  | ub => rw [hw] at hs; rcases hs with hs | hs <;> cases hs

theorem read_inv {s s' : St} {blk bid : Nat} {useW sub : Bool} (h : Inv [] s) (hb : blk ∈ s.uidle)
    (hs : read s blk bid useW sub = .ok s' ∨ read s blk bid useW sub = .throw s') : Inv [] s' := by
  unfold read at hs
  have hg := erase_count hb
  split at hs
  · rename_i e he
    rcases hs with hs | hs
    · injection hs with hs; subst hs
      refine h.change _ [(e.blk, e.req)] [(e.blk, e.req)] 0 (erasePerm (findP_mem he).1) ?_ rfl ?_ (fun x hx => Or.inl hx) (fun b hb => hb) ?_
      · simp only [ents, List.map_append, List.map_cons, List.map_nil]
        apply List.perm_iff_count.2; intro a
        simp only [List.count_append]; omega
      · intro a
        have := hg a
        simp only [idle, List.count_append, List.count_nil, List.range'_zero]
        omega
      · intro f hf; exact Or.inr (Or.inr hf)
    · cases hs
  · split at hs
    · rename_i e hw
      have he : e ∈ s.wbusy := by
        by_cases hu : useW = true
        · rw [if_pos hu] at hw; exact (findW_mem hw).1
        · rw [if_neg hu] at hw; cases hw
      rcases hs with hs | hs
      · injection hs with hs; subst hs
        refine h.change _ [(e.blk, e.req)] [(e.blk, e.req)] 0 (erasePermW he) ?_ rfl ?_ (fun x hx => Or.inl hx) (fun b hb => hb) ?_
        · simp only [ents, List.map_append, List.map_cons, List.map_nil]
          apply List.perm_iff_count.2; intro a
          simp only [List.count_append]; omega
        · intro a
          have := hg a
          simp only [idle, List.count_append, List.count_nil, List.range'_zero]
          omega
        · intro f hf; exact Or.inr (Or.inr hf)
      · cases hs
    · split at hs
      · rcases hs with hs | hs
        · cases hs
        · injection hs with hs; subst hs; exact h
      · rcases hs with hs | hs
        · injection hs with hs; subst hs
          refine h.change (ents s) [] [(blk, s.nextReq)] 0 (by simp) ?_ rfl ?_ ?_ (fun b hb => hb) (by simp)
          · simp only [ents, submit, List.map_append, List.map_cons, List.map_nil]
            apply List.perm_iff_count.2; intro a
            simp only [List.count_append]; omega
          · intro a
            have := hg a
            simp only [idle, submit, List.count_append, List.count_nil, List.range'_zero, List.map_cons, List.map_nil]
            omega
          · intro x hx
            simp only [submit, List.mem_append, List.mem_singleton] at hx
            rcases hx with hx | hx
            · exact Or.inl hx
            · subst hx; exact Or.inr (List.mem_singleton.2 rfl)
        · cases hs

theorem presize_inv {s s' : St} {n k : Nat} (h : Inv [] s)
    (hs : presize s n k = .ok s' ∨ presize s n k = .throw s') : Inv [] s' := by
  unfold presize at hs
  split at hs
  · simp only at hs
    split at hs
    · rcases hs with hs | hs
      · cases hs
      · injection hs with hs; subst hs
        refine h.move k rfl rfl rfl (fun b hb => hb) ?_
        intro a
        simp only [idle, List.count_append, List.count_nil]
        omega
    · rcases hs with hs | hs
      · injection hs with hs; subst hs
        refine h.move (n - psize s) rfl rfl rfl (fun b hb => hb) ?_
        intro a
        simp only [idle, List.count_append, List.count_nil]
        omega
      · cases hs
  · simp only at hs
    split at hs
    · rcases hs with hs | hs <;> cases hs
    · rcases hs with hs | hs
      · injection hs with hs; subst hs
        refine h.move 0 rfl rfl rfl (fun b hb => hb) ?_
        intro a
        have := congrArg (List.count a) (List.take_append_drop (s.pfree.length - min (psize s - n) s.pfs) s.pfree)
        rw [List.count_append] at this
        simp only [idle, List.count_append, List.count_nil, List.range'_zero]
        omega
      · cases hs

/-! ### Destructors -/

/-- The loop of a destructor with the entries of its pool in `L`. -/
theorem destroyLoop_inv {s s' : St} {evs : List (List Ev)} {L : List (Nat × Nat)}
    (hc : ∀ a, (idle s).count a + ((ents s).map (·.1)).count a + (L.map (·.1)).count a + s.leaked.count a = if a < s.nextBlk then 1 else 0)
    (ho : ∀ x ∈ s.q, (x.2, x.1) ∈ ents s ∨ (x.2, x.1) ∈ L ∨ x.2 ∈ s.leaked)
    (hs : destroyLoop s evs L = .ok s') : Inv [] s' := by
  induction L generalizing s evs with
  | nil =>
    simp only [destroyLoop] at hs
    injection hs with hs; subst hs
    exact ⟨fun a => by simpa using hc a, fun x hx => by simpa using ho x hx⟩
  | cons p L ih =>
    obtain ⟨b, r⟩ := p
    simp only [destroyLoop] at hs
    obtain ⟨q', err', h1, hq, _⟩ := events_frame s (evs.headD [])
    rw [h1] at hs
    split at hs
    · cases hs
    · rename_i hp
      split at hs
      · injection hs with hs; subst hs
        constructor
        · intro a
          have := hc a
          simp only [ents, idle, List.map_cons, List.count_append, List.count_nil] at this ⊢
          omega
        · intro x hx
          rcases ho x (hq x hx) with h2 | h2 | h2
          · exact Or.inl h2
          · refine Or.inr (List.mem_append.2 (Or.inr ?_))
            have : x.2 ∈ ((b, r) :: L).map (·.1) := List.mem_map.2 ⟨_, h2, rfl⟩
            simpa using this
          · exact Or.inr (List.mem_append.2 (Or.inl h2))
      · refine ih ?_ ?_ hs
        · intro a
          have := hc a
          simp only [ents, idle, List.map_cons, List.count_append] at this ⊢
          rw [show ∀ (x : Nat) l, x :: l = [x] ++ l from fun _ _ => rfl, List.count_append] at this
          omega
        · intro x hx
          rcases ho x (hq x hx) with h2 | h2 | h2
          · exact Or.inl h2
          · rcases List.mem_cons.1 h2 with h3 | h3
            · exfalso
              have hxr : x.1 = r := (Prod.mk.inj h3).2
              exact not_pending (s := { s with q := q', err := err' }) (by simpa using hp) x hx hxr
            · exact Or.inr (Or.inl h3)
          · exact Or.inr (Or.inr h2)

theorem destroyW_inv {s s' : St} {evs : List (List Ev)} (h : Inv [] s) (hs : destroyW s evs = .ok s') : Inv [] s' := by
  refine destroyLoop_inv ?_ ?_ hs
  · intro a
    have := h.cnt a
    simp only [idle, ents, List.count_append, List.map_append, List.map_nil, List.count_nil, List.nil_append] at this ⊢
    omega
  · intro x hx
    rcases h.own x hx with h1 | h1
    · simp only [ents, List.mem_append] at h1
      rcases h1 with (h1 | h1) | h1
      · exact Or.inr (Or.inl h1)
      · exact Or.inl (by simp only [ents, List.mem_append]; exact Or.inl (Or.inr h1))
      · exact Or.inl (by simp only [ents, List.mem_append]; exact Or.inr h1)
    · exact Or.inr (Or.inr h1)

theorem destroyP_inv {s s' : St} {evs : List (List Ev)} {ord : List PEnt} (h : Inv [] s) (hs : destroyP s evs ord = .ok s') : Inv [] s' := by
  unfold destroyP at hs
  split at hs
  · rename_i hp
    have hp := List.isPerm_iff.1 hp
    have hm := hp.map (fun e : PEnt => (e.blk, e.req))
    refine destroyLoop_inv ?_ ?_ hs
    · intro a
      have := h.cnt a
      have h2 := (hm.map (·.1)).count_eq a
      simp only [idle, ents, List.count_append, List.map_append, List.map_nil, List.count_nil, List.append_nil] at this ⊢
      omega
    · intro x hx
      rcases h.own x hx with h1 | h1
      · simp only [ents, List.mem_append] at h1
        rcases h1 with (h1 | h1) | h1
        · exact Or.inl (by simp only [ents, List.mem_append]; exact Or.inl (Or.inl h1))
        · exact Or.inr (Or.inl (hm.mem_iff.2 h1))
        · exact Or.inl (by simp only [ents, List.mem_append]; exact Or.inr h1)
      · exact Or.inr (Or.inr h1)
  · cases hs

theorem destroyLoop_no_throw (s s' : St) (evs : List (List Ev)) (L : List (Nat × Nat)) : destroyLoop s evs L ≠ .throw s' := by
  induction L generalizing s evs with
  | nil => simp [destroyLoop]
  | cons p L ih =>
    simp only [destroyLoop]
    split
    · simp
    · split
      · simp
      · exact ih _ _

theorem destroy_no_throw (s s' : St) (e1 e2 : List (List Ev)) (ord : List PEnt) : destroy s e1 e2 ord ≠ .throw s' := by
  unfold destroy
  intro h
  split at h
  · split at h
    · cases h
    · rename_i s1 _ _
      unfold destroyP at h
      split at h
      · exact destroyLoop_no_throw _ _ _ _ h
      · cases h
  · exact destroyLoop_no_throw _ _ _ _ h

theorem destroy_inv {s s' : St} {e1 e2 : List (List Ev)} {ord : List PEnt} (h : Inv [] s) (hs : destroy s e1 e2 ord = .ok s') : Inv [] s' := by
  unfold destroy at hs
  split at hs
  · rename_i s1 h1
    split at hs
    · rename_i s2 h2
      injection hs with hs; subst hs
      have := destroyP_inv (destroyW_inv h h1) h2
      exact ⟨this.cnt, this.own⟩
    · rename_i hne
      exact absurd hs (hne s')
  · rename_i hne
    exact absurd hs (hne s')

/-! ### Steps -/

theorem step_inv {s s' : St} {op : Op} (h : Inv [] s) (hl : Legal s op) (hs : step s op = .ok s' ∨ step s op = .throw s') : Inv [] s' := by
  cases op with
  | alloc =>
    rcases hs with hs | hs <;> simp only [step] at hs
    · injection hs with hs; subst hs
      refine h.move 1 rfl rfl rfl (fun b hb => hb) ?_
      intro a
      simp only [idle, List.count_append, List.count_nil, List.range'_one]
      omega
    · cases hs
  | write blk bid cw sw cp evs sp => exact write_inv h hl.2 hs
  | hint bid u sub => exact hint_inv h hs
  | read blk bid u sub => exact read_inv h hl.2 hs
  | invalidate bid c evs =>
    simp only [step] at hs
    cases hi : invalidate s bid c evs with
    | ok r =>
      obtain ⟨s1, b⟩ := r
      rw [hi] at hs; rcases hs with hs | hs
      · injection hs with hs; subst hs; exact invalidate_inv h (Or.inl hi)
      · cases hs
    | throw s1 =>
      rw [hi] at hs; rcases hs with hs | hs
      · cases hs
      · injection hs with hs; subst hs; exact invalidate_inv (b := false) h (Or.inr hi)
    | blocked => rw [hi] at hs; rcases hs with hs | hs <;> cases hs
    | assertFail => rw [hi] at hs; rcases hs with hs | hs <;> cases hs
    | die => rw [hi] at hs; rcases hs with hs | hs <;> cases hs
    | ub => rw [hi] at hs; rcases hs with hs | hs <;> cases hs
  | poll bid =>
    simp only [step, pollHint] at hs
    cases hf : findP s bid with
    | none =>
      rw [hf] at hs; rcases hs with hs | hs
      · injection hs with hs; subst hs; exact h
      · cases hs
    | some e =>
      rw [hf] at hs; simp only at hs
      split at hs
      · rename_i hh
        rcases hs with hs | hs
        · injection hs with hs; subst hs; exact h
        · cases hs
      · rename_i s1 hh
        split at hh
        · injection hh with hh; subst hh
          rcases hs with hs | hs
          · cases hs
          · injection hs with hs; subst hs; exact h
        · cases hh
      all_goals rcases hs with hs | hs <;> cases hs
  | steal evs =>
    simp only [step] at hs
    cases hw : wsteal s evs with
    | ok r =>
      obtain ⟨s1, p⟩ := r
      rw [hw] at hs; rcases hs with hs | hs
      · injection hs with hs; subst hs
        refine (wsteal_inv h hw).move 0 rfl rfl rfl (fun b hb => hb) ?_
        intro a
        simp only [idle, List.count_append, List.count_nil, List.range'_zero]
        omega
      · cases hs
    | throw s1 =>
      rw [hw] at hs; rcases hs with hs | hs
      · cases hs
      · injection hs with hs; subst hs; exact wsteal_inv_throw h hw
    | blocked => rw [hw] at hs; rcases hs with hs | hs <;> cases hs
    | assertFail => rw [hw] at hs; rcases hs with hs | hs <;> cases hs
    | die => rw [hw] at hs; rcases hs with hs | hs <;> cases hs
    | ub => rw [hw] at hs; rcases hs with hs | hs <;> cases hs
  | add blk =>
    rcases hs with hs | hs <;> simp only [step] at hs
    · injection hs with hs; subst hs
      refine h.move 0 rfl rfl rfl (fun b hb => hb) ?_
      intro a
      have := erase_count hl.2 a
      simp only [idle, List.count_append, List.count_nil, List.range'_zero]
      omega
    · cases hs
  | stealP =>
    simp only [step] at hs
    split at hs
    · rcases hs with hs | hs <;> cases hs
    · rename_i p hp
      rcases hs with hs | hs
      · injection hs with hs; subst hs
        refine h.move 0 rfl rfl rfl (fun b hb => hb) ?_
        intro a
        have := getLast?_count hp a
        simp only [idle, List.count_append, List.count_nil, List.range'_zero]
        omega
      · cases hs
  | addP blk =>
    rcases hs with hs | hs <;> simp only [step] at hs
    · injection hs with hs; subst hs
      refine h.move 0 rfl rfl rfl (fun b hb => hb) ?_
      intro a
      have := erase_count hl.2 a
      simp only [idle, List.count_append, List.count_nil, List.range'_zero]
      omega
    · cases hs
  | resizeW n k evss => exact wresize_inv h hs
  | resizeP n k => exact presize_inv h hs
  | collect i =>
    simp only [step] at hs
    split at hs
    · rcases hs with hs | hs <;> cases hs
    · rename_i e he
      split at hs
      · rcases hs with hs | hs <;> cases hs
      · rename_i hp
        have h1 : Inv [] { s with upend := s.upend.eraseIdx i, uidle := s.uidle ++ [e.blk] } := by
          refine h.change
            (s.wbusy.map (fun e => (e.blk, e.req)) ++ s.pbusy.map (fun e => (e.blk, e.req)) ++ (s.upend.eraseIdx i).map (fun e => (e.blk, e.req)))
            [(e.blk, e.req)] [] 0 ?_ ?_ rfl ?_ (fun x hx => Or.inl hx) (fun b hb => hb) ?_
          · have := (perm_eraseIdx he).map (fun e => (e.blk, e.req))
            apply List.perm_iff_count.2; intro a
            have := this.count_eq a
            simp only [ents, List.count_append]
            rw [this, List.map_cons, show ∀ (x : Nat × Nat) l, x :: l = [x] ++ l from fun _ _ => rfl, List.count_append]; omega
          · simp [ents]
          · intro a
            simp only [idle, List.count_append, List.map_cons, List.map_nil, List.count_nil, List.range'_zero]
            omega
          · intro f hf
            simp only [List.mem_singleton] at hf; subst hf
            exact Or.inl (by simpa using hp)
        split at hs
        · rcases hs with hs | hs
          · cases hs
          · injection hs with hs; subst hs; exact h1
        · rcases hs with hs | hs
          · injection hs with hs; subst hs; exact h1
          · cases hs
  | destroy e1 e2 ord =>
    rcases hs with hs | hs
    · exact destroy_inv h hs
    · exact absurd hs (destroy_no_throw _ _ _ _ _)
  | ev e =>
    rcases hs with hs | hs <;> simp only [step] at hs
    · injection hs with hs; subst hs; exact h.event e
    · cases hs

theorem init_inv (nw np : Nat) : Inv [] (init nw np) := by
  constructor
  · intro a
    have h1 := count_range' 0 nw a
    have h2 := count_range' nw np a
    simp only [init, idle, ents, List.count_append, List.map_nil, List.count_nil, List.append_nil, List.range_eq_range', h1, h2]
    split <;> split <;> split <;> omega
  · simp [init]

theorem reach_inv {A : Op → Prop} {s : St} (h : Reach A s) : Inv [] s := by
  induction h with
  | start nw np => exact init_inv nw np
  | ok op _ _ hl hs ih => exact step_inv ih hl (Or.inl hs)
  | throw op _ _ hl hs ih => exact step_inv ih hl (Or.inr hs)

end Foxxll.PoolFail
