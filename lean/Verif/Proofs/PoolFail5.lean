import Verif.Proofs.PoolFail4
/-
What a call does to requests it does not concern, and to the identifiers of the entries of the write pool.
-/
namespace Foxxll.PoolFail

/-- No entry is added to the write pool; requests leave the queue only if `F` allows it. -/
structure Keep (F : Nat → Prop) (s s' : St) : Prop where
  w : s'.wbusy.Sublist s.wbusy
  q : ∀ x ∈ s.q, x ∈ s'.q ∨ F x.1

theorem Keep.refl (F : Nat → Prop) (s : St) : Keep F s s := ⟨List.Sublist.refl _, fun _ h => .inl h⟩
theorem Keep.trans {F : Nat → Prop} {s t u : St} (h1 : Keep F s t) (h2 : Keep F t u) : Keep F s u := by
  refine ⟨h2.w.trans h1.w, fun x hx => ?_⟩
  rcases h1.q x hx with h | h
  · exact h2.q x h
  · exact .inr h
theorem Keep.mono {F G : Nat → Prop} {s t : St} (h : Keep F s t) (hm : ∀ r, F r → G r) : Keep G s t :=
  ⟨h.w, fun x hx => (h.q x hx).imp_right (hm _)⟩

/-- `r` finishes in one of the lists. -/
def FinIn (evs : List (List Ev)) (r : Nat) : Prop := ∃ l ∈ evs, Ev.finish r ∈ l

theorem event_keep (s : St) (e : Ev) : Keep (fun r => e = .finish r) s (event s e) := by
  cases e with
  | fail r => simp only [event]; split <;> exact ⟨List.Sublist.refl _, fun _ h => .inl h⟩
  | finish r =>
    refine ⟨List.Sublist.refl _, fun x hx => ?_⟩
    by_cases h : x.1 = r
    · exact .inr (by rw [h])
    · exact .inl (by simp [event, hx, h])

theorem events_keep (s : St) (l : List Ev) : Keep (fun r => Ev.finish r ∈ l) s (events s l) := by
  induction l generalizing s with
  | nil => exact Keep.refl _ _
  | cons e l ih =>
    exact ((event_keep s e).mono (fun r h => by simp [h])).trans ((ih (event s e)).mono (fun r h => List.mem_cons_of_mem _ h))

theorem headD_keep (s : St) (evs : List (List Ev)) : Keep (FinIn evs) s (events s (evs.headD [])) := by
  refine (events_keep s _).mono (fun r h => ?_)
  cases evs with
  | nil => cases h
  | cons l evs => exact ⟨l, List.mem_cons_self, h⟩

theorem tail_sub (evs : List (List Ev)) : ∀ l ∈ evs.tail, l ∈ evs := fun _ h => List.mem_of_mem_tail h

theorem FinIn.mono {e1 e2 : List (List Ev)} (h : ∀ l ∈ e1, l ∈ e2) : ∀ r, FinIn e1 r → FinIn e2 r := fun _ ⟨l, h1, h2⟩ => ⟨l, h l h1, h2⟩

theorem scan_keep (s : St) (evs : List (List Ev)) (l : List WEnt) (i : Nat) :
    Keep (FinIn evs) s (scan s evs l i).1 ∧ ∀ v ∈ (scan s evs l i).2.1, v ∈ evs := by
  induction l generalizing s evs i with
  | nil => exact ⟨Keep.refl _ _, fun _ h => h⟩
  | cons e l ih =>
    simp only [scan]
    split
    · exact ⟨headD_keep s evs, tail_sub evs⟩
    · split
      · obtain ⟨h1, h2⟩ := ih (events s (evs.headD [])) evs.tail (i + 1)
        exact ⟨(headD_keep s evs).trans (h1.mono (FinIn.mono (tail_sub evs))), fun v hv => tail_sub evs v (h2 v hv)⟩
      · exact ⟨headD_keep s evs, tail_sub evs⟩

theorem waitAny_keep (s : St) (evs : List (List Ev)) :
    Keep (FinIn evs) s (waitAny s evs).1 ∧ ∀ v ∈ (waitAny s evs).2.1, v ∈ evs := by
  obtain ⟨h1, h2⟩ := scan_keep s evs s.wbusy 0
  unfold waitAny
  rcases hr : scan s evs s.wbusy 0 with ⟨s1, evs1, sc⟩
  rw [hr] at h1 h2
  simp only at h1 h2
  cases sc with
  | none =>
    simp only
    obtain ⟨h3, h4⟩ := scan_keep (events s1 (evs1.headD [])) evs1.tail s.wbusy 0
    exact ⟨(h1.trans ((headD_keep s1 evs1).mono (FinIn.mono h2))).trans (h3.mono (FinIn.mono (fun v hv => h2 v (tail_sub _ v hv)))),
      fun v hv => h2 v (tail_sub _ v (h4 v hv))⟩
  | found i => exact ⟨h1, h2⟩
  | threw => exact ⟨h1, h2⟩

theorem checkBusy_keep {s s' : St} {evs : List (List Ev)} {pre l : List WEnt}
    (hs : checkBusy s evs pre l = .ok s' ∨ checkBusy s evs pre l = .throw s') :
    s'.wbusy.Sublist (pre ++ l) ∧ ∀ x ∈ s.q, x ∈ s'.q ∨ FinIn evs x.1 := by
  induction l generalizing s evs pre with
  | nil =>
    rcases hs with hs | hs <;> simp only [checkBusy] at hs
    · injection hs with hs; subst hs; exact ⟨by simp, fun _ h => .inl h⟩
    · cases hs
  | cons e l ih =>
    have hk := headD_keep s evs
    simp only [checkBusy] at hs
    generalize hg : events s (evs.headD []) = t at hs hk
    split at hs
    · rcases hs with hs | hs
      · cases hs
      · injection hs with hs; subst hs; exact ⟨List.Sublist.refl _, hk.q⟩
    · split at hs
      · obtain ⟨a1, a2⟩ := ih hs
        refine ⟨by simpa using a1, fun x hx => ?_⟩
        rcases hk.q x hx with h | h
        · exact (a2 x h).imp_right (FinIn.mono (tail_sub evs) _)
        · exact .inr h
      · obtain ⟨a1, a2⟩ := ih hs
        refine ⟨a1.trans (List.Sublist.append_left (List.sublist_cons_self _ _) _), fun x hx => ?_⟩
        rcases hk.q x hx with h | h
        · exact (a2 x h).imp_right (FinIn.mono (tail_sub evs) _)
        · exact .inr h

theorem wsteal_keep {s s' : St} {evs : List (List Ev)} (hs : (∃ p, wsteal s evs = .ok (s', p)) ∨ wsteal s evs = .throw s') : Keep (FinIn evs) s s' := by
  unfold wsteal at hs
  split at hs
  · rcases hs with ⟨p, hs⟩ | hs <;> cases hs
  · split at hs
    · rcases hs with ⟨p, hs⟩ | hs
      · injection hs with hs; obtain ⟨rfl, rfl⟩ := Prod.mk.inj hs
        exact ⟨List.Sublist.refl _, fun _ h => .inl h⟩
      · cases hs
    · obtain ⟨hk, hv⟩ := waitAny_keep s evs
      split at hs
      · rcases hs with ⟨p, hs⟩ | hs <;> cases hs
      · rename_i s1 evs1 hwa
        rw [hwa] at hk
        rcases hs with ⟨p, hs⟩ | hs
        · cases hs
        · injection hs with hs; subst hs; exact hk
      · rename_i s1 evs1 i hwa
        rw [hwa] at hk hv
        simp only at hk hv
        split at hs
        · rcases hs with ⟨p, hs⟩ | hs <;> cases hs
        · have key : ∀ s2, (checkBusy s1 evs1 [] (s1.wbusy.eraseIdx i) = .ok s2 ∨ checkBusy s1 evs1 [] (s1.wbusy.eraseIdx i) = .throw s2) →
              Keep (FinIn evs) s s2 := by
            intro s2 h2
            obtain ⟨a1, a2⟩ := checkBusy_keep h2
            refine hk.trans ⟨?_, fun x hx => (a2 x hx).imp_right (FinIn.mono hv _)⟩
            rw [List.nil_append] at a1
            exact a1.trans (List.eraseIdx_sublist _ _)
          split at hs
          · rename_i s2 hc
            rcases hs with ⟨p, hs⟩ | hs
            · injection hs with hs; obtain ⟨rfl, rfl⟩ := Prod.mk.inj hs
              exact key _ (Or.inl hc)
            · cases hs
          · rename_i s2 hc
            rcases hs with ⟨p, hs⟩ | hs
            · cases hs
            · injection hs with hs; subst hs
              have := key _ (Or.inr hc)
              exact ⟨this.w, this.q⟩
          all_goals rcases hs with ⟨p, hs⟩ | hs <;> cases hs

theorem stealN_keep {s s' : St} {evss : List (List (List Ev))} {k : Nat} (hs : stealN s evss k = .ok s' ∨ stealN s evss k = .throw s') :
    Keep (fun r => ∃ evs ∈ evss, FinIn evs r) s s' := by
  induction k generalizing s evss with
  | zero =>
    rcases hs with hs | hs <;> simp only [stealN] at hs
    · injection hs with hs; subst hs; exact Keep.refl _ _
    · cases hs
  | succ k ih =>
    have hd : ∀ r, FinIn (evss.headD []) r → ∃ evs ∈ evss, FinIn evs r := by
      intro r h
      cases evss with
      | nil => obtain ⟨l, h, _⟩ := h; cases h
      | cons a b => exact ⟨a, List.mem_cons_self, h⟩
    simp only [stealN] at hs
    cases hw : wsteal s (evss.headD []) with
    | ok r =>
      obtain ⟨s1, p⟩ := r
      rw [hw] at hs; simp only at hs
      have h1 := (wsteal_keep (Or.inl ⟨p, hw⟩)).mono hd
      have h2 := (ih hs).mono (G := fun r => ∃ evs ∈ evss, FinIn evs r) (fun r ⟨evs, h1, h2⟩ => ⟨evs, List.mem_of_mem_tail h1, h2⟩)
      exact h1.trans ⟨h2.w, h2.q⟩
    | throw s1 =>
      rw [hw] at hs
      rcases hs with hs | hs
      · cases hs
      · injection hs with hs; subst hs; exact (wsteal_keep (Or.inr hw)).mono hd
    | blocked => rw [hw] at hs; rcases hs with hs | hs <;> cases hs
    | assertFail => rw [hw] at hs; rcases hs with hs | hs <;> cases hs
    | die => rw [hw] at hs; rcases hs with hs | hs <;> cases hs
    | ub => rw [hw] at hs; rcases hs with hs | hs <;> cases hs

theorem hint_keep {s s' : St} {bid : Nat} {u sub : Bool} (hs : hint s bid u sub = .ok s' ∨ hint s bid u sub = .throw s') : Keep (fun _ => False) s s' := by
  unfold hint at hs
  split at hs
  · rcases hs with hs | hs
    · injection hs with hs; subst hs; exact Keep.refl _ _
    · cases hs
  split at hs
  · rcases hs with hs | hs
    · injection hs with hs; subst hs; exact Keep.refl _ _
    · cases hs
  split at hs
  · rcases hs with hs | hs <;> cases hs
  · simp only at hs
    split at hs
    · rcases hs with hs | hs
      · injection hs with hs; subst hs; exact ⟨List.erase_sublist, fun _ h => .inl h⟩
      · cases hs
    · split at hs
      · rcases hs with hs | hs
        · cases hs
        · injection hs with hs; subst hs; exact ⟨List.Sublist.refl _, fun _ h => .inl h⟩
      · rcases hs with hs | hs
        · injection hs with hs; subst hs; exact ⟨List.Sublist.refl _, fun _ h => .inl (List.mem_append_left _ h)⟩
        · cases hs

theorem cancel_keep (s : St) (r : Nat) (c : Bool) : Keep (fun x => x = r ∧ c = true ∧ x ∉ s.err) s (cancel s r c) := by
  unfold cancel
  split
  · rename_i hc
    simp only [Bool.and_eq_true, Bool.not_eq_true', failed] at hc
    refine ⟨List.Sublist.refl _, fun x hx => ?_⟩
    by_cases h : x.1 = r
    · exact .inr ⟨h, hc.1, by rw [h]; simpa using hc.2⟩
    · exact .inl (by simp [hx, h])
  · exact Keep.refl _ _

/-- The request of a hint that reads. -/
def HintReq (s : St) (bid : Nat) (r : Nat) : Prop := r ∉ s.err ∧ ∃ e ∈ s.pbusy, e.bid = bid ∧ e.req = r ∧ e.rd = true

theorem invalidate_keep {s s' : St} {bid : Nat} {canc : Bool} {evs : List Ev} (hs : (∃ b, invalidate s bid canc evs = .ok (s', b)) ∨ invalidate s bid canc evs = .throw s') :
    Keep (fun r => Ev.finish r ∈ evs ∨ (canc = true ∧ HintReq s bid r)) s s' := by
  unfold invalidate at hs
  cases hf : findP s bid with
  | none =>
    rw [hf] at hs
    rcases hs with ⟨b, hs⟩ | hs
    · injection hs with hs; obtain ⟨rfl, rfl⟩ := Prod.mk.inj hs; exact Keep.refl _ _
    · cases hs
  | some e =>
    rw [hf] at hs
    simp only at hs
    obtain ⟨he, hb⟩ := findP_mem hf
    have h1 : Keep (fun r => Ev.finish r ∈ evs ∨ (canc = true ∧ HintReq s bid r)) s (if e.rd then cancel s e.req canc else s) := by
      split
      · rename_i hr
        exact (cancel_keep s e.req canc).mono (fun r ⟨a, b, c⟩ => .inr ⟨b, c, e, he, hb, a.symm, hr⟩)
      · exact Keep.refl _ _
    generalize (if e.rd then cancel s e.req canc else s) = t at hs h1
    have h2 : Keep (fun r => Ev.finish r ∈ evs ∨ (canc = true ∧ HintReq s bid r)) s (events t evs) :=
      h1.trans ((events_keep t evs).mono (fun _ h => .inl h))
    generalize events t evs = t' at hs h2
    split at hs
    · rcases hs with ⟨b, hs⟩ | hs <;> cases hs
    split at hs
    · rcases hs with ⟨b, hs⟩ | hs
      · cases hs
      · injection hs with hs; subst hs; exact h2
    · rcases hs with ⟨b, hs⟩ | hs
      · injection hs with hs; obtain ⟨rfl, rfl⟩ := Prod.mk.inj hs
        exact ⟨h2.w, h2.q⟩
      · cases hs

/-- A write of the pool to identifier `bid`. -/
def WriteReq (s : St) (bid : Nat) (cw : List Nat) (r : Nat) : Prop := r ∉ s.err ∧ r ∈ cw ∧ ∃ e ∈ s.wbusy, e.bid = some bid ∧ e.req = r

/-- The identifiers of the entries of the write pool. -/
def wids (s : St) : List Nat := s.wbusy.filterMap (·.bid)

theorem dropStale_q (s : St) (bid : Nat) (canc : List Nat) : ∀ x ∈ s.q, x ∈ (dropStale s bid canc).q ∨ WriteReq s bid canc x.1 := by
  intro x hx
  by_cases h : x ∈ (dropStale s bid canc).q
  · exact .inl h
  · refine .inr ?_
    simp only [dropStale, List.mem_filter, hx, true_and, Bool.not_eq_true', Bool.not_eq_false, Bool.and_eq_true, List.any_eq_true,
      List.contains_eq_mem, decide_eq_true_eq, beq_iff_eq, failed, decide_eq_false_iff_not] at h
    obtain ⟨⟨h1, h2⟩, e, h3, h4, h5⟩ := h
    exact ⟨by simpa using h2, h1, e, h3, h4, h5⟩

theorem dropStale_wids (s : St) (bid : Nat) (canc : List Nat) : wids (dropStale s bid canc) = (wids s).filter (fun b => b != bid) := by
  unfold wids dropStale
  simp only
  induction s.wbusy with
  | nil => rfl
  | cons e l ih =>
    simp only [List.map_cons]
    by_cases h : e.bid = some bid
    · rw [if_pos h, List.filterMap_cons, List.filterMap_cons]
      simp only [h]
      rw [List.filter_cons]
      simpa using ih
    · rw [if_neg h, List.filterMap_cons, List.filterMap_cons]
      cases hb : e.bid with
      | none => simpa [hb] using ih
      | some c =>
        have : c ≠ bid := fun e' => h (by rw [hb, e'])
        simp only
        rw [List.filter_cons]
        simp [this, ih]

theorem wwrite_keep {s s' : St} {blk bid : Nat} {canc : List Nat} {sub : Bool}
    (hs : wwrite s blk bid canc sub = .ok s' ∨ wwrite s blk bid canc sub = .throw s') :
    (∀ x ∈ s.q, x ∈ s'.q ∨ WriteReq s bid canc x.1) ∧ s'.err = s.err ∧ s'.pbusy = s.pbusy ∧
      (wids s' = (wids s).filter (fun b => b != bid) ∨ wids s' = (wids s).filter (fun b => b != bid) ++ [bid]) := by
  unfold wwrite at hs
  split at hs
  · rcases hs with hs | hs <;> cases hs
  · simp only at hs
    have hq := dropStale_q s bid canc
    have hw := dropStale_wids s bid canc
    split at hs
    · rcases hs with hs | hs
      · cases hs
      · injection hs with hs; subst hs; exact ⟨hq, rfl, rfl, .inl hw⟩
    · rcases hs with hs | hs
      · injection hs with hs; subst hs
        refine ⟨fun x hx => (hq x hx).imp_left (List.mem_append_left _), rfl, rfl, .inr ?_⟩
        have e : wids (dropStale s bid canc) ++ [bid] = (wids s).filter (fun b => b != bid) ++ [bid] := by rw [hw]
        rw [← e]
        simp [wids, submit]
      · cases hs

theorem Keep.wids {F : Nat → Prop} {s t : St} (h : Keep F s t) : (wids t).Sublist (wids s) := h.w.filterMap _

theorem wwrite_no {s s' : St} {blk bid : Nat} {canc : List Nat} {sub : Bool}
    (hs : wwrite s blk bid canc sub = .ok s' ∨ wwrite s blk bid canc sub = .throw s') (h : (wids s).Nodup) : (wids s').Nodup := by
  obtain ⟨_, _, _, h1⟩ := wwrite_keep hs
  have hn := h.filter (fun b => b != bid)
  rcases h1 with h1 | h1
  · rw [h1]; exact hn
  · rw [h1]; exact nodup_snoc hn (by simp)

theorem write_keep {s s' : St} {blk bid : Nat} {cw : List Nat} {sw cp sp : Bool} {evs : List Ev}
    (hs : write s blk bid cw sw cp evs sp = .ok s' ∨ write s blk bid cw sw cp evs sp = .throw s') :
    (∀ x ∈ s.q, x ∈ s'.q ∨ Ev.finish x.1 ∈ evs ∨ WriteReq s bid cw x.1 ∨ (cp = true ∧ HintReq s bid x.1)) ∧
    ((wids s).Nodup → (wids s').Nodup) := by
  unfold write at hs
  cases hw : wwrite s blk bid cw sw with
  | ok s1 =>
    rw [hw] at hs; simp only at hs
    obtain ⟨a1, a2, a3, _⟩ := wwrite_keep (.inl hw)
    have hn := wwrite_no (.inl hw)
    have key : ∀ s2, ((∃ b, invalidate s1 bid cp evs = .ok (s2, b)) ∨ invalidate s1 bid cp evs = .throw s2) → ∀ s3, Keep (fun _ => False) s2 s3 →
        (∀ x ∈ s.q, x ∈ s3.q ∨ Ev.finish x.1 ∈ evs ∨ WriteReq s bid cw x.1 ∨ (cp = true ∧ HintReq s bid x.1)) ∧ ((wids s).Nodup → (wids s3).Nodup) := by
      intro s2 h2 s3 h3
      have hk := invalidate_keep h2
      refine ⟨fun x hx => ?_, fun h => (hn h).sublist (h3.wids.trans hk.wids)⟩
      rcases a1 x hx with h | h
      · rcases hk.q x h with h | h | ⟨h, h', h''⟩
        · exact (h3.q x h).elim .inl False.elim
        · exact .inr (.inl h)
        · rw [a3] at h''; rw [a2] at h'
          exact .inr (.inr (.inr ⟨h, h', h''⟩))
      · exact .inr (.inr (.inl h))
    cases hi : invalidate s1 bid cp evs with
    | ok r =>
      obtain ⟨s2, b⟩ := r
      rw [hi] at hs
      cases b with
      | true => exact key s2 (.inl ⟨_, hi⟩) s' (hint_keep hs)
      | false =>
        rcases hs with hs | hs
        · injection hs with hs; subst hs; exact key s2 (.inl ⟨_, hi⟩) s2 (Keep.refl _ _)
        · cases hs
    | throw s2 =>
      rw [hi] at hs
      rcases hs with hs | hs
      · cases hs
      · injection hs with hs; subst hs; exact key s2 (.inr hi) s2 (Keep.refl _ _)
    | blocked => rw [hi] at hs; rcases hs with hs | hs <;> cases hs
    | assertFail => rw [hi] at hs; rcases hs with hs | hs <;> cases hs
    | die => rw [hi] at hs; rcases hs with hs | hs <;> cases hs
    | ub => rw [hi] at hs; rcases hs with hs | hs <;> cases hs
  | throw s1 =>
    rw [hw] at hs
    rcases hs with hs | hs
    · cases hs
    · injection hs with hs; subst hs
      exact ⟨fun x hx => ((wwrite_keep (.inr hw)).1 x hx).imp_right (fun h => .inr (.inl h)), wwrite_no (.inr hw)⟩
  | blocked => rw [hw] at hs; rcases hs with hs | hs <;> cases hs
  | assertFail => rw [hw] at hs; rcases hs with hs | hs <;> cases hs
  | die => rw [hw] at hs; rcases hs with hs | hs <;> cases hs
  | ub => rw [hw] at hs; rcases hs with hs | hs <;> cases hs

theorem read_keep {s s' : St} {blk bid : Nat} {u sub : Bool} (hs : read s blk bid u sub = .ok s' ∨ read s blk bid u sub = .throw s') : Keep (fun _ => False) s s' := by
  unfold read at hs
  split at hs
  · rcases hs with hs | hs
    · injection hs with hs; subst hs; exact ⟨List.Sublist.refl _, fun _ h => .inl h⟩
    · cases hs
  · split at hs
    · rcases hs with hs | hs
      · injection hs with hs; subst hs; exact ⟨List.erase_sublist, fun _ h => .inl h⟩
      · cases hs
    · split at hs
      · rcases hs with hs | hs
        · cases hs
        · injection hs with hs; subst hs; exact Keep.refl _ _
      · rcases hs with hs | hs
        · injection hs with hs; subst hs; exact ⟨List.Sublist.refl _, fun _ h => .inl (List.mem_append_left _ h)⟩
        · cases hs

theorem destroyLoop_keep {s s' : St} {evs : List (List Ev)} {L : List (Nat × Nat)} (hs : destroyLoop s evs L = .ok s') : Keep (FinIn evs) s s' := by
  induction L generalizing s evs with
  | nil => simp only [destroyLoop] at hs; injection hs with hs; subst hs; exact Keep.refl _ _
  | cons p L ih =>
    obtain ⟨b, r⟩ := p
    have hk := headD_keep s evs
    simp only [destroyLoop] at hs
    generalize events s (evs.headD []) = t at hs hk
    split at hs
    · cases hs
    split at hs
    · injection hs with hs; subst hs; exact ⟨hk.w, hk.q⟩
    · have h2 := (ih hs).mono (FinIn.mono (tail_sub evs))
      exact hk.trans ⟨h2.w, h2.q⟩

/-- The events inside a call. -/
def Op.evs : Op → List Ev
  | .write _ _ _ _ _ evs _ => evs
  | .invalidate _ _ evs => evs
  | .steal evs => evs.flatten
  | .resizeW _ _ evss => evss.flatten.flatten
  | .destroy e1 e2 _ => e1.flatten ++ e2.flatten
  | .ev e => [e]
  | _ => []

/-- Requests a call may cancel: writes of the pool that a write to the same identifier makes obsolete; reads of hints whose identifier is
written or invalidated.  None of them has failed. -/
def MayCancel (s : St) : Op → Nat → Prop
  | .write _ bid cw _ cp _ _, r => WriteReq s bid cw r ∨ (cp = true ∧ HintReq s bid r)
  | .invalidate bid c _, r => c = true ∧ HintReq s bid r
  | _, _ => False

theorem step_keep {s s' : St} {op : Op} (hs : step s op = .ok s' ∨ step s op = .throw s') :
    (∀ x ∈ s.q, x ∈ s'.q ∨ Ev.finish x.1 ∈ op.evs ∨ MayCancel s op x.1) ∧ ((wids s).Nodup → (wids s').Nodup) := by
  have fin : ∀ {F : Nat → Prop}, (∀ r, F r → Ev.finish r ∈ op.evs ∨ MayCancel s op r) → Keep F s s' →
      (∀ x ∈ s.q, x ∈ s'.q ∨ Ev.finish x.1 ∈ op.evs ∨ MayCancel s op x.1) ∧ ((wids s).Nodup → (wids s').Nodup) :=
    fun hF hk => ⟨fun x hx => (hk.q x hx).imp_right (hF _), fun h => h.sublist hk.wids⟩
  have triv : s'.wbusy = s.wbusy → s'.q = s.q → (∀ x ∈ s.q, x ∈ s'.q ∨ Ev.finish x.1 ∈ op.evs ∨ MayCancel s op x.1) ∧ ((wids s).Nodup → (wids s').Nodup) :=
    fun h1 h2 => fin (F := fun _ => False) (fun _ h => h.elim) ⟨by rw [h1]; exact List.Sublist.refl _, fun x hx => .inl (by rw [h2]; exact hx)⟩
  cases op with
  | alloc =>
    rcases hs with hs | hs
    · injection hs with hs; subst hs; exact triv rfl rfl
    · cases hs
  | write blk bid cw sw cp evs sp => exact write_keep hs
  | hint bid u sub => exact fin (fun _ h => h.elim) (hint_keep hs)
  | read blk bid u sub => exact fin (fun _ h => h.elim) (read_keep hs)
  | invalidate bid c evs =>
    simp only [step] at hs
    cases hi : invalidate s bid c evs with
    | ok r =>
      obtain ⟨s1, b⟩ := r
      rw [hi] at hs; rcases hs with hs | hs
      · injection hs with hs; subst hs; exact fin (fun _ h => h) (invalidate_keep (Or.inl ⟨b, hi⟩))
      · cases hs
    | throw s1 =>
      rw [hi] at hs; rcases hs with hs | hs
      · cases hs
      · injection hs with hs; subst hs; exact fin (fun _ h => h) (invalidate_keep (Or.inr hi))
    | blocked => rw [hi] at hs; rcases hs with hs | hs <;> cases hs
    | assertFail => rw [hi] at hs; rcases hs with hs | hs <;> cases hs
    | die => rw [hi] at hs; rcases hs with hs | hs <;> cases hs
    | ub => rw [hi] at hs; rcases hs with hs | hs <;> cases hs
  | poll bid =>
    simp only [step] at hs
    cases hi : pollHint s bid with
    | ok r =>
      rw [hi] at hs; rcases hs with hs | hs
      · injection hs with hs; subst hs; exact triv rfl rfl
      · cases hs
    | throw s1 =>
      rw [hi] at hs; rcases hs with hs | hs
      · cases hs
      · injection hs with hs; subst hs
        unfold pollHint at hi
        split at hi
        · cases hi
        · split at hi
          · injection hi with hi; subst hi; exact triv rfl rfl
          · cases hi
    | blocked => rw [hi] at hs; rcases hs with hs | hs <;> cases hs
    | assertFail => rw [hi] at hs; rcases hs with hs | hs <;> cases hs
    | die => rw [hi] at hs; rcases hs with hs | hs <;> cases hs
    | ub => rw [hi] at hs; rcases hs with hs | hs <;> cases hs
  | steal evs =>
    have hF : ∀ r, FinIn evs r → Ev.finish r ∈ (Op.steal evs).evs ∨ MayCancel s (Op.steal evs) r :=
      fun r ⟨l, h1, h2⟩ => .inl (List.mem_flatten.2 ⟨l, h1, h2⟩)
    simp only [step] at hs
    cases hw : wsteal s evs with
    | ok r =>
      obtain ⟨s1, p⟩ := r
      rw [hw] at hs; rcases hs with hs | hs
      · injection hs with hs; subst hs
        have := wsteal_keep (Or.inl ⟨p, hw⟩)
        exact fin hF ⟨this.w, this.q⟩
      · cases hs
    | throw s1 =>
      rw [hw] at hs; rcases hs with hs | hs
      · cases hs
      · injection hs with hs; subst hs; exact fin hF (wsteal_keep (Or.inr hw))
    | blocked => rw [hw] at hs; rcases hs with hs | hs <;> cases hs
    | assertFail => rw [hw] at hs; rcases hs with hs | hs <;> cases hs
    | die => rw [hw] at hs; rcases hs with hs | hs <;> cases hs
    | ub => rw [hw] at hs; rcases hs with hs | hs <;> cases hs
  | add blk =>
    rcases hs with hs | hs
    · injection hs with hs; subst hs; exact triv rfl rfl
    · cases hs
  | stealP =>
    simp only [step] at hs
    split at hs
    · rcases hs with hs | hs <;> cases hs
    · rcases hs with hs | hs
      · injection hs with hs; subst hs; exact triv rfl rfl
      · cases hs
  | addP blk =>
    rcases hs with hs | hs
    · injection hs with hs; subst hs; exact triv rfl rfl
    · cases hs
  | resizeW n k evss =>
    simp only [step, wresize] at hs
    split at hs
    · split at hs
      · rcases hs with hs | hs
        · cases hs
        · injection hs with hs; subst hs; exact triv rfl rfl
      · rcases hs with hs | hs
        · injection hs with hs; subst hs; exact triv rfl rfl
        · cases hs
    · exact fin (fun r ⟨evs, h0, l, h1, h2⟩ => .inl (List.mem_flatten.2 ⟨l, List.mem_flatten.2 ⟨evs, h0, h1⟩, h2⟩)) (stealN_keep hs)
  | resizeP n k =>
    simp only [step, presize] at hs
    split at hs
    · split at hs
      · rcases hs with hs | hs
        · cases hs
        · injection hs with hs; subst hs; exact triv rfl rfl
      · rcases hs with hs | hs
        · injection hs with hs; subst hs; exact triv rfl rfl
        · cases hs
    · split at hs
      · rcases hs with hs | hs <;> cases hs
      · rcases hs with hs | hs
        · injection hs with hs; subst hs; exact triv rfl rfl
        · cases hs
  | collect i =>
    simp only [step] at hs
    split at hs
    · rcases hs with hs | hs <;> cases hs
    · split at hs
      · rcases hs with hs | hs <;> cases hs
      · split at hs
        · rcases hs with hs | hs
          · cases hs
          · injection hs with hs; subst hs; exact triv rfl rfl
        · rcases hs with hs | hs
          · injection hs with hs; subst hs; exact triv rfl rfl
          · cases hs
  | destroy e1 e2 ord =>
    rcases hs with hs | hs
    · obtain ⟨s1, s2, a1, a2, rfl⟩ := destroy_ok hs
      have k1 := destroyLoop_keep a1
      have k2 : Keep (FinIn e2) s1 s2 := by
        unfold destroyP at a2
        split at a2
        · have := destroyLoop_keep a2
          exact ⟨this.w.trans (List.Sublist.refl _), this.q⟩
        · cases a2
      have hF1 : ∀ r, FinIn e1 r → Ev.finish r ∈ (Op.destroy e1 e2 ord).evs ∨ MayCancel s (Op.destroy e1 e2 ord) r :=
        fun r ⟨l, h1, h2⟩ => .inl (List.mem_append_left _ (List.mem_flatten.2 ⟨l, h1, h2⟩))
      have hF2 : ∀ r, FinIn e2 r → Ev.finish r ∈ (Op.destroy e1 e2 ord).evs ∨ MayCancel s (Op.destroy e1 e2 ord) r :=
        fun r ⟨l, h1, h2⟩ => .inl (List.mem_append_right _ (List.mem_flatten.2 ⟨l, h1, h2⟩))
      refine fin (F := fun r => Ev.finish r ∈ (Op.destroy e1 e2 ord).evs ∨ MayCancel s (Op.destroy e1 e2 ord) r) (fun _ h => h) ?_
      have k1' := k1.mono hF1
      have k2' := k2.mono hF2
      refine ⟨(k2'.w.trans k1'.w).trans (List.nil_sublist _), fun x hx => ?_⟩
      rcases k1'.q x hx with h | h
      · exact k2'.q x h
      · exact .inr h
    · exact absurd hs (destroy_no_throw _ _ _ _ _)
  | ev e =>
    rcases hs with hs | hs
    · injection hs with hs; subst hs
      exact fin (fun r h => .inl (by subst h; simp [Op.evs])) (event_keep s e)
    · cases hs

theorem reach_wids {A : Op → Prop} {s : St} (h : Reach A s) : (wids s).Nodup := by
  induction h with
  | start nw np => simp [wids, init]
  | ok op _ _ _ hs ih => exact (step_keep (.inl hs)).2 ih
  | throw op _ _ _ hs ih => exact (step_keep (.inr hs)).2 ih

/-! ### The entry of a written block -/

theorem dropStale_none (s : St) (bid : Nat) (canc : List Nat) : ∀ e ∈ (dropStale s bid canc).wbusy, e.bid ≠ some bid := by
  intro e he
  simp only [dropStale, List.mem_map] at he
  obtain ⟨e', _, rfl⟩ := he
  split
  · simp
  · assumption

theorem wwrite_entry {s s' : St} {blk bid : Nat} {canc : List Nat} (hs : wwrite s blk bid canc false = .ok s') :
    s'.wbusy = (dropStale s bid canc).wbusy ++ [⟨blk, s.nextReq, some bid⟩] ∧ s'.pbusy = s.pbusy ∧ s'.pfs = s.pfs ∧ s'.pfree = s.pfree ∧
      (s.nextReq, blk) ∈ s'.q ∧ findW s' bid = some ⟨blk, s.nextReq, some bid⟩ := by
  unfold wwrite at hs
  split at hs
  · cases hs
  · simp only [Bool.false_eq_true, if_false] at hs
    injection hs with hs
    subst hs
    refine ⟨rfl, rfl, rfl, rfl, by simp [submit, dropStale], ?_⟩
    have hn := dropStale_none s bid canc
    unfold findW
    rw [List.find?_eq_some_iff_append]
    exact ⟨by simp, (dropStale s bid canc).wbusy, [], rfl, fun e he => by simpa using hn e he⟩

theorem wwrite_sub_ok {s s' : St} {blk bid : Nat} {canc : List Nat} {sub : Bool} (hs : wwrite s blk bid canc sub = .ok s') : sub = false := by
  unfold wwrite at hs
  split at hs
  · cases hs
  · cases sub with
    | true => simp at hs
    | false => rfl

theorem write_entry {A : Op → Prop} {s s' : St} {blk bid : Nat} {cw : List Nat} {sw cp sp : Bool} {evs : List Ev} (h : Reach A s)
    (hs : write s blk bid cw sw cp evs sp = .ok s') :
    ((s.nextReq, blk) ∈ s'.q ∨ Ev.finish s.nextReq ∈ evs) ∧
    (bid ∉ s.pbusy.map (·.bid) → bid ∉ s'.pbusy.map (·.bid) ∧ s'.wbusy.filter (fun e => e.bid == some bid) = [⟨blk, s.nextReq, some bid⟩]) ∧
    (bid ∈ s.pbusy.map (·.bid) → s'.pbusy.filter (fun e => e.bid == bid) = [⟨bid, blk, s.nextReq, false⟩] ∧ ∀ e ∈ s'.wbusy, e.bid ≠ some bid) := by
  obtain ⟨hids, hnd⟩ := reach_ids h
  have hpf := reach_pfs h
  unfold write at hs
  cases hw : wwrite s blk bid cw sw with
  | ok s1 =>
    have e0 := wwrite_sub_ok hw
    subst e0
    obtain ⟨b1, b2, b3, b4, b5, b6⟩ := wwrite_entry hw
    rw [hw] at hs; simp only at hs
    have hnone := dropStale_none s bid cw
    have hfil : s1.wbusy.filter (fun e => e.bid == some bid) = [⟨blk, s.nextReq, some bid⟩] := by
      rw [b1, List.filter_append]
      have : (dropStale s bid cw).wbusy.filter (fun e => e.bid == some bid) = [] := by
        rw [List.filter_eq_nil_iff]
        intro e he; simpa using hnone e he
      rw [this]; simp
    cases hf : findP s1 bid with
    | none =>
      have hno := findP_none hf
      rw [b2] at hno
      have hi : invalidate s1 bid cp evs = .ok (s1, false) := by unfold invalidate; rw [hf]
      rw [hi] at hs
      injection hs with hs; subst hs
      exact ⟨.inl b5, fun _ => ⟨by rw [b2]; exact hno, hfil⟩, fun h => absurd h hno⟩
    | some e =>
      obtain ⟨he, heb⟩ := findP_mem hf
      rw [b2] at he
      have hin : bid ∈ s.pbusy.map (·.bid) := List.mem_map.2 ⟨e, he, heb⟩
      refine ⟨?_, fun h => absurd hin h, fun _ => ?_⟩
      · -- the request
        cases hi : invalidate s1 bid cp evs with
        | ok r =>
          obtain ⟨s2, b⟩ := r
          rw [hi] at hs
          have hk := invalidate_keep (.inl ⟨b, hi⟩)
          rcases hk.q _ b5 with h | h | ⟨_, _, e', h1, _, h3, _⟩
          · cases b with
            | true => exact .inl (((hint_keep (.inl hs)).q _ h).elim id False.elim)
            | false => injection hs with hs; subst hs; exact .inl h
          · exact .inr h
          · exfalso
            rw [b2] at h1
            have := hids (e'.blk, e'.req) (by
              simp only [ents, List.mem_append]
              exact Or.inl (Or.inr (List.mem_map.2 ⟨e', h1, rfl⟩)))
            simp only at this h3
            omega
        | throw s2 => rw [hi] at hs; cases hs
        | blocked => rw [hi] at hs; cases hs
        | assertFail => rw [hi] at hs; cases hs
        | die => rw [hi] at hs; cases hs
        | ub => rw [hi] at hs; cases hs
      · unfold invalidate at hs
        rw [hf] at hs
        simp only at hs
        obtain ⟨q', err', hfr, _⟩ := inval_frame s1 e cp evs
        rw [hfr] at hs
        split at hs
        · rename_i hx; split at hx <;> first | cases hx | skip
          split at hx
          · cases hx
          · injection hx with hx; injection hx with hx _; subst hx
            unfold hint at hs
            have herase : ∀ c ∈ s.pbusy.erase e, c.bid ≠ bid := by
              intro c hc hcb
              have hp : (s.pbusy.map (·.bid)).Perm (e.bid :: (s.pbusy.erase e).map (·.bid)) := by
                have := (List.perm_cons_erase he).map (·.bid)
                simpa using this
              have := hp.nodup_iff.1 hnd
              rw [List.nodup_cons] at this
              exact this.1 (List.mem_map.2 ⟨c, hc, by rw [hcb, heb]⟩)
            split at hs
            · rename_i hsome
              exfalso
              rw [Option.isSome_iff_exists] at hsome
              obtain ⟨c, hc⟩ := hsome
              obtain ⟨c1, c2⟩ := findP_mem hc
              simp only [b2] at c1
              exact herase c c1 c2
            split at hs
            · rename_i hz; simp only at hz; omega
            split at hs
            · cases hs
            · rename_i p hp
              simp only at hs
              have hfw : findW { s1 with q := q', err := err', pfs := s1.pfs + 1 - 1, pfree := (s1.pfree ++ [e.blk]).dropLast, pbusy := s1.pbusy.erase e } bid = some ⟨blk, s.nextReq, some bid⟩ := b6
              try simp only [if_true] at hs
              rw [hfw] at hs
              simp only at hs
              injection hs with hs; subst hs
              constructor
              · simp only [b2, List.filter_append]
                have : (s.pbusy.erase e).filter (fun c => c.bid == bid) = [] := by
                  rw [List.filter_eq_nil_iff]
                  intro c hc; simpa using herase c hc
                rw [this]; simp
              · intro c hc hcb
                have hc : c ∈ s1.wbusy.erase ⟨blk, s.nextReq, some bid⟩ := hc
                rw [b1, List.erase_append_right _ (fun hm => hnone _ hm rfl)] at hc
                simp only [List.erase_cons_head, List.append_nil] at hc
                exact hnone c hc hcb
        · rename_i hx; split at hx <;> first | cases hx | skip
          split at hx <;> cases hx
        all_goals first
          | cases hs
          | skip
  | throw s1 => rw [hw] at hs; cases hs
  | blocked => rw [hw] at hs; cases hs
  | assertFail => rw [hw] at hs; cases hs
  | die => rw [hw] at hs; cases hs
  | ub => rw [hw] at hs; cases hs

end Foxxll.PoolFail
