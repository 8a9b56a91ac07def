/-
Helper lemmas for C123: numbers of requests, identifiers in the prefetch pool.
-/
import Verif.Proofs.PoolFail3

namespace Foxxll.PoolFail

/-- No new entries but those of new requests; the prefetch pool has an identifier only once. -/
def Sub (s s' : St) : Prop :=
  (∀ p ∈ ents s', p ∈ ents s ∨ p.2 < s'.nextReq) ∧ s.nextReq ≤ s'.nextReq ∧
    ((s.pbusy.map (·.bid)).Nodup → (s'.pbusy.map (·.bid)).Nodup)

theorem Sub.refl (s : St) : Sub s s := ⟨fun _ hp => Or.inl hp, Nat.le_refl _, fun h => h⟩
theorem Sub.trans {s t u : St} (h1 : Sub s t) (h2 : Sub t u) : Sub s u := by
  obtain ⟨a1, a2, a3⟩ := h1
  obtain ⟨b1, b2, b3⟩ := h2
  refine ⟨fun p hp => ?_, by omega, fun h => b3 (a3 h)⟩
  rcases b1 p hp with h | h
  · rcases a1 p h with h | h
    · exact Or.inl h
    · exact Or.inr (by omega)
  · exact Or.inr h

/-- The entries are kept or go away. -/
theorem Sub.less {s s' : St} (hw : ∀ e ∈ s'.wbusy, e ∈ s.wbusy) (hp : s'.pbusy.Sublist s.pbusy) (hu : ∀ e ∈ s'.upend, e ∈ s.upend)
    (hn : s'.nextReq = s.nextReq) : Sub s s' := by
  refine ⟨fun p h => Or.inl ?_, by omega, fun h => (hp.map _).nodup h⟩
  simp only [ents, List.mem_append, List.mem_map] at h ⊢
  rcases h with (⟨e, he, h⟩ | ⟨e, he, h⟩) | ⟨e, he, h⟩
  · exact Or.inl (Or.inl ⟨e, hw e he, h⟩)
  · exact Or.inl (Or.inr ⟨e, hp.subset he, h⟩)
  · exact Or.inr ⟨e, hu e he, h⟩

theorem events_sub (s : St) (l : List Ev) : Sub s (events s l) := by
  obtain ⟨q', err', h, _⟩ := events_frame s l
  rw [h]; exact Sub.less (fun e he => he) (List.Sublist.refl _) (fun e he => he) rfl

theorem checkBusy_sub {s s' : St} {evs : List (List Ev)} {pre l : List WEnt}
    (hs : checkBusy s evs pre l = .ok s' ∨ checkBusy s evs pre l = .throw s') :
    (∀ e ∈ s'.wbusy, e ∈ pre ++ l) ∧ s'.pbusy = s.pbusy ∧ s'.upend = s.upend ∧ s'.nextReq = s.nextReq := by
  induction l generalizing s evs pre with
  | nil =>
    rcases hs with hs | hs <;> simp only [checkBusy] at hs
    · injection hs with hs; subst hs; exact ⟨by simp, rfl, rfl, rfl⟩
    · cases hs
  | cons e l ih =>
    obtain ⟨q', err', h, _⟩ := events_frame s (evs.headD [])
    simp only [checkBusy] at hs
    rw [h] at hs
    split at hs
    · rcases hs with hs | hs
      · cases hs
      · injection hs with hs; subst hs; exact ⟨fun e he => he, rfl, rfl, rfl⟩
    · split at hs
      · obtain ⟨a1, a2, a3, a4⟩ := ih hs
        exact ⟨fun e' he' => by have := a1 e' he'; simpa using this, a2, a3, a4⟩
      · obtain ⟨a1, a2, a3, a4⟩ := ih hs
        refine ⟨fun e' he' => ?_, a2, a3, a4⟩
        have := a1 e' he'
        simp only [List.mem_append, List.mem_cons] at this ⊢
        rcases this with h | h
        · exact Or.inl h
        · exact Or.inr (Or.inr h)

theorem wsteal_sub {s s' : St} {evs : List (List Ev)} (hs : (∃ p, wsteal s evs = .ok (s', p)) ∨ wsteal s evs = .throw s') : Sub s s' := by
  unfold wsteal at hs
  split at hs
  · rcases hs with ⟨p, hs⟩ | hs <;> cases hs
  · split at hs
    · rcases hs with ⟨p, hs⟩ | hs
      · injection hs with hs; obtain ⟨rfl, rfl⟩ := Prod.mk.inj hs
        exact Sub.less (fun e he => he) (List.Sublist.refl _) (fun e he => he) rfl
      · cases hs
    · obtain ⟨q', err', hw, _⟩ := waitAny_spec s evs
      split at hs
      · rcases hs with ⟨p, hs⟩ | hs <;> cases hs
      · rename_i s1 evs1 hwa
        rw [hwa] at hw
        simp only at hw
        rcases hs with ⟨p, hs⟩ | hs
        · cases hs
        · injection hs with hs; subst hs
          rw [hw]; exact Sub.less (fun e he => he) (List.Sublist.refl _) (fun e he => he) rfl
      · rename_i s1 evs1 i hwa
        rw [hwa] at hw
        simp only at hw
        split at hs
        · rcases hs with ⟨p, hs⟩ | hs <;> cases hs
        · have key : ∀ s2, (checkBusy s1 evs1 [] (s1.wbusy.eraseIdx i) = .ok s2 ∨ checkBusy s1 evs1 [] (s1.wbusy.eraseIdx i) = .throw s2) →
              (∀ e ∈ s2.wbusy, e ∈ s.wbusy) ∧ s2.pbusy = s.pbusy ∧ s2.upend = s.upend ∧ s2.nextReq = s.nextReq := by
            intro s2 h2
            obtain ⟨a1, a2, a3, a4⟩ := checkBusy_sub h2
            refine ⟨fun e he => ?_, by rw [a2, hw], by rw [a3, hw], by rw [a4, hw]⟩
            have := a1 e he
            rw [List.nil_append] at this
            have := List.mem_of_mem_eraseIdx this
            rw [hw] at this; exact this
          split at hs
          · rename_i s2 hc
            obtain ⟨a1, a2, a3, a4⟩ := key s2 (Or.inl hc)
            rcases hs with ⟨p, hs⟩ | hs
            · injection hs with hs; obtain ⟨rfl, rfl⟩ := Prod.mk.inj hs
              exact Sub.less a1 (by rw [a2]; exact List.Sublist.refl _) (by rw [a3]; exact fun e he => he) a4
            · cases hs
          · rename_i s2 hc
            obtain ⟨a1, a2, a3, a4⟩ := key s2 (Or.inr hc)
            rcases hs with ⟨p, hs⟩ | hs
            · cases hs
            · injection hs with hs; subst hs
              exact Sub.less a1 (by simp only; rw [a2]; exact List.Sublist.refl _) (by simp only; rw [a3]; exact fun e he => he) a4
          all_goals rcases hs with ⟨p, hs⟩ | hs <;> cases hs

theorem stealN_sub {s s' : St} {evss : List (List (List Ev))} {k : Nat} (hs : stealN s evss k = .ok s' ∨ stealN s evss k = .throw s') : Sub s s' := by
  induction k generalizing s evss with
  | zero =>
    rcases hs with hs | hs <;> simp only [stealN] at hs
    · injection hs with hs; subst hs; exact Sub.refl s
    · cases hs
  | succ k ih =>
    simp only [stealN] at hs
    cases hw : wsteal s (evss.headD []) with
    | ok r =>
      obtain ⟨s1, p⟩ := r
      rw [hw] at hs; simp only at hs
      refine (wsteal_sub (Or.inl ⟨p, hw⟩)).trans (Sub.trans ?_ (ih hs))
      exact Sub.less (fun e he => he) (List.Sublist.refl _) (fun e he => he) rfl
    | throw s1 =>
      rw [hw] at hs
      rcases hs with hs | hs
      · cases hs
      · injection hs with hs; subst hs; exact wsteal_sub (Or.inr hw)
    | blocked => rw [hw] at hs; rcases hs with hs | hs <;> cases hs
    | assertFail => rw [hw] at hs; rcases hs with hs | hs <;> cases hs
    | die => rw [hw] at hs; rcases hs with hs | hs <;> cases hs
    | ub => rw [hw] at hs; rcases hs with hs | hs <;> cases hs

theorem findP_none {s : St} {b : Nat} (h : findP s b = none) : b ∉ s.pbusy.map (·.bid) := by
  intro hb
  obtain ⟨e, he, rfl⟩ := List.mem_map.1 hb
  have := List.find?_eq_none.1 h e he
  simp at this

theorem nodup_snoc {l : List Nat} {a : Nat} (h : l.Nodup) (ha : a ∉ l) : (l ++ [a]).Nodup := by
  rw [List.nodup_append]
  exact ⟨h, by simp, fun x hx y hy => by rw [List.mem_singleton] at hy; rw [hy]; intro h; rw [h] at hx; exact ha hx⟩

theorem hint_sub {s s' : St} {bid : Nat} {u sub : Bool} (hs : hint s bid u sub = .ok s' ∨ hint s bid u sub = .throw s') : Sub s s' := by
  unfold hint at hs
  split at hs
  · rcases hs with hs | hs
    · injection hs with hs; subst hs; exact Sub.refl s
    · cases hs
  · rename_i hno
    have hno : bid ∉ s.pbusy.map (·.bid) := by
      apply findP_none
      simpa using hno
    split at hs
    · rcases hs with hs | hs
      · injection hs with hs; subst hs; exact Sub.refl s
      · cases hs
    · split at hs
      · rcases hs with hs | hs <;> cases hs
      · rename_i blk hp
        simp only at hs
        split at hs
        · rename_i e hw
          have he : e ∈ s.wbusy := by
            by_cases hu : u = true
            · rw [if_pos hu] at hw; exact (findW_mem hw).1
            · rw [if_neg hu] at hw; cases hw
          rcases hs with hs | hs
          · injection hs with hs; subst hs
            refine ⟨fun p h => Or.inl ?_, Nat.le_refl _, fun h => by simpa using nodup_snoc h hno⟩
            simp only [ents, List.mem_append, List.mem_map, List.mem_singleton] at h ⊢
            rcases h with (⟨e', he', h⟩ | ⟨e', he' | he', h⟩) | ⟨e', he', h⟩
            · exact Or.inl (Or.inl ⟨e', List.mem_of_mem_erase he', h⟩)
            · exact Or.inl (Or.inr ⟨e', he', h⟩)
            · subst he'; exact Or.inl (Or.inl ⟨e, he, h⟩)
            · exact Or.inr ⟨e', he', h⟩
          · cases hs
        · split at hs
          · rcases hs with hs | hs
            · cases hs
            · injection hs with hs; subst hs
              exact Sub.less (fun e he => he) (List.Sublist.refl _) (fun e he => he) rfl
          · rcases hs with hs | hs
            · injection hs with hs; subst hs
              refine ⟨fun p h => ?_, Nat.le_succ _, fun h => by simpa [submit] using nodup_snoc h hno⟩
              simp only [submit, ents, List.mem_append, List.mem_map, List.mem_singleton] at h ⊢
              rcases h with (⟨e', he', h⟩ | ⟨e', he' | he', h⟩) | ⟨e', he', h⟩
              · exact Or.inl (Or.inl (Or.inl ⟨e', he', h⟩))
              · exact Or.inl (Or.inl (Or.inr ⟨e', he', h⟩))
              · subst he'; subst h; exact Or.inr (Nat.lt_succ_self _)
              · exact Or.inl (Or.inr ⟨e', he', h⟩)
            · cases hs

theorem invalidate_sub {s s' : St} {bid : Nat} {canc b : Bool} {evs : List Ev}
    (hs : invalidate s bid canc evs = .ok (s', b) ∨ invalidate s bid canc evs = .throw s') : Sub s s' := by
  unfold invalidate at hs
  split at hs
  · rcases hs with hs | hs
    · injection hs with hs; obtain ⟨rfl, rfl⟩ := Prod.mk.inj hs; exact Sub.refl _
    · cases hs
  · rename_i e he
    obtain ⟨q', err', h1, hq, _⟩ := inval_frame s e canc evs
    simp only [h1] at hs
    split at hs
    · rcases hs with hs | hs <;> cases hs
    · split at hs
      · rcases hs with hs | hs
        · cases hs
        · injection hs with hs; subst hs
          exact Sub.less (fun e he => he) (List.Sublist.refl _) (fun e he => he) rfl
      · rcases hs with hs | hs
        · injection hs with hs; obtain ⟨rfl, rfl⟩ := Prod.mk.inj hs
          exact Sub.less (fun e he => he) List.erase_sublist (fun e he => he) rfl
        · cases hs

theorem dropStale_sub (s : St) (bid : Nat) (canc : List Nat) : Sub s (dropStale s bid canc) := by
  have he : ents (dropStale s bid canc) = ents s := by
    simp only [ents, dropStale, List.map_map]
    congr 2
    apply List.map_congr_left
    intro e _
    simp only [Function.comp]
    split <;> rfl
  exact ⟨fun p hp => Or.inl (by rw [he] at hp; exact hp), Nat.le_refl _, fun h => h⟩

theorem wwrite_sub {s s' : St} {blk bid : Nat} {canc : List Nat} {sub : Bool}
    (hs : wwrite s blk bid canc sub = .ok s' ∨ wwrite s blk bid canc sub = .throw s') : Sub s s' := by
  unfold wwrite at hs
  have h1 := dropStale_sub s bid canc
  generalize dropStale s bid canc = t at h1 hs
  split at hs
  · rcases hs with hs | hs <;> cases hs
  · simp only at hs
    split at hs
    · rcases hs with hs | hs
      · cases hs
      · injection hs with hs; subst hs; exact h1
    · rcases hs with hs | hs
      · injection hs with hs; subst hs
        refine h1.trans ⟨fun p h => ?_, Nat.le_succ _, fun h => h⟩
        simp only [submit, ents, List.mem_append, List.mem_map, List.mem_singleton] at h ⊢
        rcases h with (⟨e', he' | he', h⟩ | ⟨e', he', h⟩) | ⟨e', he', h⟩
        · exact Or.inl (Or.inl (Or.inl ⟨e', he', h⟩))
        · subst he'; subst h; exact Or.inr (Nat.lt_succ_self _)
        · exact Or.inl (Or.inl (Or.inr ⟨e', he', h⟩))
        · exact Or.inl (Or.inr ⟨e', he', h⟩)
      · cases hs

theorem write_sub {s s' : St} {blk bid : Nat} {cw : List Nat} {sw cp sp : Bool} {evs : List Ev}
    (hs : write s blk bid cw sw cp evs sp = .ok s' ∨ write s blk bid cw sw cp evs sp = .throw s') : Sub s s' := by
  unfold write at hs
  cases hw : wwrite s blk bid cw sw with
  | ok s1 =>
    have h1 := wwrite_sub (Or.inl hw)
    rw [hw] at hs; simp only at hs
    cases hi : invalidate s1 bid cp evs with
    | ok r =>
      obtain ⟨s2, b⟩ := r
      have h2 := h1.trans (invalidate_sub (Or.inl hi))
      rw [hi] at hs
      cases b with
      | true => exact h2.trans (hint_sub hs)
      | false =>
        simp only at hs
        rcases hs with hs | hs
        · injection hs with hs; subst hs; exact h2
        · cases hs
    | throw s2 =>
      have h2 := h1.trans (invalidate_sub (b := false) (Or.inr hi))
      rw [hi] at hs
      rcases hs with hs | hs
      · cases hs
      · injection hs with hs; subst hs; exact h2
    | blocked => rw [hi] at hs; rcases hs with hs | hs <;> cases hs
    | assertFail => rw [hi] at hs; rcases hs with hs | hs <;> cases hs
    | die => rw [hi] at hs; rcases hs with hs | hs <;> cases hs
    | ub => rw [hi] at hs; rcases hs with hs | hs <;> cases hs
  | throw s1 =>
    have h1 := wwrite_sub (Or.inr hw)
    rw [hw] at hs
    rcases hs with hs | hs
    · cases hs
    · injection hs with hs; subst hs; exact h1
  | blocked => rw [hw] at hs; rcases hs with hs | hs <;> cases hs
  | assertFail => rw [hw] at hs; rcases hs with hs | hs <;> cases hs
  | die => rw [hw] at hs; rcases hs with hs | hs <;> cases hs
  | ub => rw [hw] at hs; rcases hs with hs | hs <;> cases hs

theorem read_sub {s s' : St} {blk bid : Nat} {u sub : Bool} (hs : read s blk bid u sub = .ok s' ∨ read s blk bid u sub = .throw s') : Sub s s' := by
  unfold read at hs
  split at hs
  · rename_i e he
    rcases hs with hs | hs
    · injection hs with hs; subst hs
      refine ⟨fun p h => Or.inl ?_, Nat.le_refl _, fun h => (List.erase_sublist.map _).nodup h⟩
      simp only [ents, List.mem_append, List.mem_map, List.mem_singleton] at h ⊢
      rcases h with (⟨e', he', h⟩ | ⟨e', he', h⟩) | ⟨e', he' | he', h⟩
      · exact Or.inl (Or.inl ⟨e', he', h⟩)
      · exact Or.inl (Or.inr ⟨e', List.mem_of_mem_erase he', h⟩)
      · exact Or.inr ⟨e', he', h⟩
      · subst he'; exact Or.inl (Or.inr ⟨e, (findP_mem he).1, h⟩)
    · cases hs
  · split at hs
    · rename_i e hw
      have he : e ∈ s.wbusy := by
        by_cases hu : u = true
        · rw [if_pos hu] at hw; exact (findW_mem hw).1
        · rw [if_neg hu] at hw; cases hw
      rcases hs with hs | hs
      · injection hs with hs; subst hs
        refine ⟨fun p h => Or.inl ?_, Nat.le_refl _, fun h => h⟩
        simp only [ents, List.mem_append, List.mem_map, List.mem_singleton] at h ⊢
        rcases h with (⟨e', he', h⟩ | ⟨e', he', h⟩) | ⟨e', he' | he', h⟩
        · exact Or.inl (Or.inl ⟨e', List.mem_of_mem_erase he', h⟩)
        · exact Or.inl (Or.inr ⟨e', he', h⟩)
        · exact Or.inr ⟨e', he', h⟩
        · subst he'; exact Or.inl (Or.inl ⟨e, he, h⟩)
      · cases hs
    · split at hs
      · rcases hs with hs | hs
        · cases hs
        · injection hs with hs; subst hs; exact Sub.refl _
      · rcases hs with hs | hs
        · injection hs with hs; subst hs
          refine ⟨fun p h => ?_, Nat.le_succ _, fun h => h⟩
          simp only [submit, ents, List.mem_append, List.mem_map, List.mem_singleton] at h ⊢
          rcases h with (⟨e', he', h⟩ | ⟨e', he', h⟩) | ⟨e', he' | he', h⟩
          · exact Or.inl (Or.inl (Or.inl ⟨e', he', h⟩))
          · exact Or.inl (Or.inl (Or.inr ⟨e', he', h⟩))
          · exact Or.inl (Or.inr ⟨e', he', h⟩)
          · subst he'; subst h; exact Or.inr (Nat.lt_succ_self _)
        · cases hs

theorem destroyLoop_next {s s' : St} {evs : List (List Ev)} {L : List (Nat × Nat)} (hs : destroyLoop s evs L = .ok s') : s'.nextReq = s.nextReq := by
  induction L generalizing s evs with
  | nil => simp only [destroyLoop] at hs; injection hs with hs; subst hs; rfl
  | cons p L ih =>
    obtain ⟨b, r⟩ := p
    obtain ⟨q', err', h1, _⟩ := events_frame s (evs.headD [])
    simp only [destroyLoop] at hs
    rw [h1] at hs
    split at hs
    · cases hs
    · split at hs
      · injection hs with hs; subst hs; rfl
      · have := ih hs
        exact this

theorem step_sub {s s' : St} {op : Op} (hs : step s op = .ok s' ∨ step s op = .throw s') : Sub s s' := by
  cases op with
  | alloc =>
    rcases hs with hs | hs
    · injection hs with hs; subst hs; exact Sub.less (fun e he => he) (List.Sublist.refl _) (fun e he => he) rfl
    · cases hs
  | write blk bid cw sw cp evs sp => exact write_sub hs
  | hint bid u sub => exact hint_sub hs
  | read blk bid u sub => exact read_sub hs
  | invalidate bid c evs =>
    simp only [step] at hs
    cases hi : invalidate s bid c evs with
    | ok r =>
      obtain ⟨s1, b⟩ := r
      rw [hi] at hs; rcases hs with hs | hs
      · injection hs with hs; subst hs; exact invalidate_sub (Or.inl hi)
      · cases hs
    | throw s1 =>
      rw [hi] at hs; rcases hs with hs | hs
      · cases hs
      · injection hs with hs; subst hs; exact invalidate_sub (b := false) (Or.inr hi)
    | blocked => rw [hi] at hs; rcases hs with hs | hs <;> cases hs
    | assertFail => rw [hi] at hs; rcases hs with hs | hs <;> cases hs
    | die => rw [hi] at hs; rcases hs with hs | hs <;> cases hs
    | ub => rw [hi] at hs; rcases hs with hs | hs <;> cases hs
  | poll bid =>
    simp only [step] at hs
    cases hi : pollHint s bid with
    | ok r =>
      rw [hi] at hs; rcases hs with hs | hs
      · injection hs with hs; subst hs; exact Sub.refl _
      · cases hs
    | throw s1 =>
      rw [hi] at hs; rcases hs with hs | hs
      · cases hs
      · injection hs with hs; subst hs
        unfold pollHint at hi
        split at hi
        · cases hi
        · split at hi
          · injection hi with hi; subst hi; exact Sub.refl _
          · cases hi
    | blocked => rw [hi] at hs; rcases hs with hs | hs <;> cases hs
    | assertFail => rw [hi] at hs; rcases hs with hs | hs <;> cases hs
    | die => rw [hi] at hs; rcases hs with hs | hs <;> cases hs
    | ub => rw [hi] at hs; rcases hs with hs | hs <;> cases hs
  | steal evs =>
    simp only [step] at hs
    cases hw : wsteal s evs with
    | ok r =>
      obtain ⟨s1, p⟩ := r
      rw [hw] at hs; rcases hs with hs | hs
      · injection hs with hs; subst hs
        refine (wsteal_sub (Or.inl ⟨p, hw⟩)).trans ?_
        exact Sub.less (fun e he => he) (List.Sublist.refl _) (fun e he => he) rfl
      · cases hs
    | throw s1 =>
      rw [hw] at hs; rcases hs with hs | hs
      · cases hs
      · injection hs with hs; subst hs; exact wsteal_sub (Or.inr hw)
    | blocked => rw [hw] at hs; rcases hs with hs | hs <;> cases hs
    | assertFail => rw [hw] at hs; rcases hs with hs | hs <;> cases hs
    | die => rw [hw] at hs; rcases hs with hs | hs <;> cases hs
    | ub => rw [hw] at hs; rcases hs with hs | hs <;> cases hs
  | add blk =>
    rcases hs with hs | hs
    · injection hs with hs; subst hs; exact Sub.less (fun e he => he) (List.Sublist.refl _) (fun e he => he) rfl
    · cases hs
  | stealP =>
    simp only [step] at hs
    split at hs
    · rcases hs with hs | hs <;> cases hs
    · rcases hs with hs | hs
      · injection hs with hs; subst hs; exact Sub.less (fun e he => he) (List.Sublist.refl _) (fun e he => he) rfl
      · cases hs
  | addP blk =>
    rcases hs with hs | hs
    · injection hs with hs; subst hs; exact Sub.less (fun e he => he) (List.Sublist.refl _) (fun e he => he) rfl
    · cases hs
  | resizeW n k evss =>
    simp only [step, wresize] at hs
    split at hs
    · split at hs
      · rcases hs with hs | hs
        · cases hs
        · injection hs with hs; subst hs; exact Sub.less (fun e he => he) (List.Sublist.refl _) (fun e he => he) rfl
      · rcases hs with hs | hs
        · injection hs with hs; subst hs; exact Sub.less (fun e he => he) (List.Sublist.refl _) (fun e he => he) rfl
        · cases hs
    · exact stealN_sub hs
  | resizeP n k =>
    simp only [step, presize] at hs
    split at hs
    · split at hs
      · rcases hs with hs | hs
        · cases hs
        · injection hs with hs; subst hs; exact Sub.less (fun e he => he) (List.Sublist.refl _) (fun e he => he) rfl
      · rcases hs with hs | hs
        · injection hs with hs; subst hs; exact Sub.less (fun e he => he) (List.Sublist.refl _) (fun e he => he) rfl
        · cases hs
    · split at hs
      · rcases hs with hs | hs <;> cases hs
      · rcases hs with hs | hs
        · injection hs with hs; subst hs; exact Sub.less (fun e he => he) (List.Sublist.refl _) (fun e he => he) rfl
        · cases hs
  | collect i =>
    simp only [step] at hs
    split at hs
    · rcases hs with hs | hs <;> cases hs
    · split at hs
      · rcases hs with hs | hs <;> cases hs
      · have h1 : ∀ (e : UEnt), Sub s { s with upend := s.upend.eraseIdx i, uidle := s.uidle ++ [e.blk] } := fun e =>
          Sub.less (fun e he => he) (List.Sublist.refl _) (fun e he => List.mem_of_mem_eraseIdx he) rfl
        split at hs
        · rcases hs with hs | hs
          · cases hs
          · injection hs with hs; subst hs; exact h1 _
        · rcases hs with hs | hs
          · injection hs with hs; subst hs; exact h1 _
          · cases hs
  | destroy e1 e2 ord =>
    rcases hs with hs | hs
    · obtain ⟨h1, h2, h3, h4, h5, h6, h7, h8⟩ := destroy_empty hs
      have hn : s'.nextReq = s.nextReq := by
        obtain ⟨s1, s2, a1, a2, rfl⟩ := destroy_ok hs
        have b1 := destroyLoop_next a1
        unfold destroyP at a2
        split at a2
        · exact (destroyLoop_next a2).trans b1
        · cases a2
      exact Sub.less (by rw [h2]; simp) (by rw [h5]; simp) (by rw [h7]; exact fun e he => he) hn
    · exact absurd hs (destroy_no_throw _ _ _ _ _)
  | ev e =>
    rcases hs with hs | hs
    · injection hs with hs; subst hs
      obtain ⟨q', err', h, _⟩ := event_frame s e
      rw [h]; exact Sub.less (fun e he => he) (List.Sublist.refl _) (fun e he => he) rfl
    · cases hs

theorem reach_ids {A : Op → Prop} {s : St} (h : Reach A s) : (∀ p ∈ ents s, p.2 < s.nextReq) ∧ (s.pbusy.map (·.bid)).Nodup := by
  have key : ∀ {s s' : St}, Sub s s' → ((∀ p ∈ ents s, p.2 < s.nextReq) ∧ (s.pbusy.map (·.bid)).Nodup) →
      ((∀ p ∈ ents s', p.2 < s'.nextReq) ∧ (s'.pbusy.map (·.bid)).Nodup) := by
    intro s s' ⟨a1, a2, a3⟩ ⟨i1, i2⟩
    refine ⟨fun p hp => ?_, a3 i2⟩
    rcases a1 p hp with h | h
    · have := i1 p h; omega
    · exact h
  induction h with
  | start nw np => simp [init, ents]
  | ok op _ _ _ hs ih => exact key (step_sub (Or.inl hs)) ih
  | throw op _ _ _ hs ih => exact key (step_sub (Or.inr hs)) ih

theorem findP_of_mem {s : St} {e : PEnt} {bid : Nat} (hnd : (s.pbusy.map (·.bid)).Nodup) (he : e ∈ s.pbusy) (hid : e.bid = bid) :
    findP s bid = some e := by
  unfold findP
  generalize s.pbusy = l at hnd he
  induction l with
  | nil => cases he
  | cons a l ih =>
    rw [List.map_cons, List.nodup_cons] at hnd
    rw [List.find?_cons]
    rcases List.mem_cons.1 he with rfl | he
    · simp [hid]
    · split
      · rename_i h
        exact absurd (List.mem_map.2 ⟨e, he, by simpa [hid] using (eq_comm.1 (by simpa using h))⟩) hnd.1
      · exact ih hnd.2 he

/-! ### `back()` of an empty list -/

theorem hint_no_ub {s : St} {bid : Nat} {u sub : Bool} (h : s.pfs = s.pfree.length) : hint s bid u sub ≠ .ub := by
  unfold hint
  split
  · simp
  · split
    · simp
    · rename_i hne
      split
      · rename_i hn
        have := List.getLast?_eq_none_iff.1 hn
        rw [this] at h; exact absurd h hne
      · simp only
        split
        · simp
        · split <;> simp

theorem checkBusy_no_ub {s : St} {evs : List (List Ev)} {pre l : List WEnt} : checkBusy s evs pre l ≠ .ub := by
  induction l generalizing s evs pre with
  | nil => simp [checkBusy]
  | cons e l ih =>
    simp only [checkBusy]
    split
    · simp
    · split <;> exact ih

theorem wsteal_no_ub {s : St} {evs : List (List Ev)} : wsteal s evs ≠ .ub := by
  unfold wsteal
  split
  · simp
  · split
    · simp
    · split
      · simp
      · simp
      · split
        · simp
        · split <;> try simp
          rename_i h
          exact checkBusy_no_ub h

theorem stealN_no_ub {s : St} {evss : List (List (List Ev))} {k : Nat} : stealN s evss k ≠ .ub := by
  induction k generalizing s evss with
  | zero => simp [stealN]
  | succ k ih =>
    simp only [stealN]
    split
    · exact ih
    all_goals try simp
    rename_i h
    exact wsteal_no_ub h

theorem invalidate_no_ub {s : St} {bid : Nat} {c : Bool} {evs : List Ev} : invalidate s bid c evs ≠ .ub := by
  unfold invalidate
  split
  · simp
  · rename_i e _
    simp only
    generalize events (if e.rd = true then cancel s e.req c else s) evs = t
    split
    · simp
    · split <;> simp

theorem destroyLoop_no_ub {s : St} {evs : List (List Ev)} {L : List (Nat × Nat)} : destroyLoop s evs L ≠ .ub := by
  induction L generalizing s evs with
  | nil => simp [destroyLoop]
  | cons p L ih =>
    simp only [destroyLoop]
    split
    · simp
    · split
      · simp
      · exact ih

theorem step_no_ub {s : St} {op : Op} (h : s.pfs = s.pfree.length) : step s op ≠ .ub := by
  cases op with
  | alloc => simp [step]
  | write blk bid cw sw cp evs sp =>
    show write s blk bid cw sw cp evs sp ≠ .ub
    unfold write
    cases hw : wwrite s blk bid cw sw with
    | ok s1 =>
      have h1 := (wwrite_frame.1 hw).1.2
      simp only
      cases hi : invalidate s1 bid cp evs with
      | ok r =>
        obtain ⟨s2, b⟩ := r
        have h2 := (invalidate_frame.1 hi).2
        cases b with
        | true => exact hint_no_ub (by omega)
        | false => simp
      | ub => exact absurd hi invalidate_no_ub
      | throw _ => simp
      | blocked => simp
      | assertFail => simp
      | die => simp
    | ub =>
      unfold wwrite at hw
      split at hw
      · cases hw
      · simp only at hw
        split at hw <;> cases hw
    | throw _ => simp
    | blocked => simp
    | assertFail => simp
    | die => simp
  | hint bid u sub => exact hint_no_ub h
  | read blk bid u sub =>
    show read s blk bid u sub ≠ .ub
    unfold read
    split
    · simp
    · split
      · simp
      · split <;> simp
  | invalidate bid c evs =>
    simp only [step]
    split <;> try simp
    rename_i hh
    exact invalidate_no_ub hh
  | poll bid =>
    simp only [step]
    split <;> try simp
    rename_i hh
    unfold pollHint at hh
    split at hh
    · cases hh
    · split at hh <;> cases hh
  | steal evs =>
    simp only [step]
    split <;> try simp
    rename_i hh
    exact wsteal_no_ub hh
  | add blk => simp [step]
  | stealP => simp only [step]; split <;> simp
  | addP blk => simp [step]
  | resizeW n k evss =>
    simp only [step, wresize]
    split
    · split <;> simp
    · exact stealN_no_ub
  | resizeP n k =>
    simp only [step, presize]
    split
    · split <;> simp
    · split
      · omega
      · simp
  | collect i =>
    simp only [step]
    split
    · simp
    · split
      · simp
      · split <;> simp
  | destroy e1 e2 ord =>
    show destroy s e1 e2 ord ≠ .ub
    unfold destroy
    split
    · split
      · simp
      · unfold destroyP
        split
        · exact destroyLoop_no_ub
        · simp
    · exact destroyLoop_no_ub
  | ev e => simp [step]

end Foxxll.PoolFail
