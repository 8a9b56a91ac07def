import Verif.Model.Tools
/-
Helper lemmas for C135 to C137.
-/
namespace Foxxll.Tools

/-- Invariant of all runs. -/
structure Inv (t : Tool) (s : St) : Prop where
  own : ∀ p ∈ s.flight, ∃ j : Nat, s.cur[j]? = some p.1 ∧ p.2 = t.buf j
  nd : (s.flight.map (·.1)).Nodup
  sorted : s.cur.Pairwise (· < ·)
  below : ∀ i ∈ s.cur, i < s.next
  old : ∀ i ∈ s.failed, i < s.next
  sub : ∀ j, s.pc = .submit j → s.cur.length = j
  wt : ∀ k, s.pc = .wait k → ∀ p ∈ s.flight, ∀ j : Nat, s.cur[j]? = some p.1 → k ≤ j

/-- What is known of a run behind the loop. -/
def After (t : Tool) (as : List Act) (s : St) : Prop :=
  (s.pc = .thrown ∨ s.pc = .freed ∨ s.pc = .terminated) →
    (s.flight = [] ∨ Act.client true ∈ as ∨ (∃ i ∈ s.failed, ∀ p ∈ s.flight, i < p.1)) ∧
    (s.pc = .freed → t.catches = false → s.flight = [])

theorem lt_of_sorted {l : List Nat} (h : l.Pairwise (· < ·)) {i j : Nat} {x y : Nat} (hi : l[i]? = some x) (hj : l[j]? = some y) (hij : i < j) : x < y := by
  rw [List.pairwise_iff_getElem] at h
  obtain ⟨hil, hi⟩ := List.getElem?_eq_some_iff.1 hi
  obtain ⟨hjl, hj⟩ := List.getElem?_eq_some_iff.1 hj
  have := h i j hil hjl hij; omega

theorem init_inv (t : Tool) (l : List Nat) : Inv t (init l) :=
  ⟨(by intro p hp; cases hp), List.nodup_nil, List.Pairwise.nil, (by intro i hi; cases hi), (by intro i hi; cases hi),
    (by intro j hj; cases hj; rfl), (by intro k hk; cases hk)⟩

theorem any_false {f : List (Nat × Nat)} {i : Nat} (h : ¬ f.any (·.1 == i) = true) : ∀ p ∈ f, p.1 ≠ i := by
  intro p hp c
  apply h
  rw [List.any_eq_true]
  exact ⟨p, hp, by simp [c]⟩

theorem client_inv {t : Tool} {th : Bool} {s s' : St} (I : Inv t s) (h : client t th s = some s') : Inv t s' := by
  unfold client at h
  split at h
  · rename_i j hpc
    split at h
    · injection h with h; subst h
      exact ⟨I.own, I.nd, I.sorted, I.below, I.old, (by intro j hj; cases hj), (by intro k hk; cases hk)⟩
    · split at h
      · injection h with h; subst h
        exact ⟨I.own, I.nd, I.sorted, I.below, I.old, (by intro j hj; cases hj), (by intro k hk; cases hk)⟩
      · split at h
        · injection h with h; subst h
          have hl := I.sub j hpc
          have hfl : ∀ p ∈ s.flight, p.1 < s.next := by
            intro p hp
            obtain ⟨j', hj', _⟩ := I.own p hp
            exact I.below _ (List.mem_of_getElem? hj')
          refine ⟨?_, ?_, ?_, ?_, ?_, ?_, ?_⟩
          · intro p hp
            rcases List.mem_append.1 hp with hp | hp
            · obtain ⟨j', hj', hb⟩ := I.own p hp
              refine ⟨j', ?_, hb⟩
              rw [List.getElem?_append_left (List.getElem?_eq_some_iff.1 hj').1]
              exact hj'
            · have hp := List.mem_singleton.1 hp
              subst hp
              refine ⟨j, ?_, rfl⟩
              show (s.cur ++ [s.next])[j]? = _
              rw [← hl, List.getElem?_append_right (Nat.le_refl _)]
              simp
          · show ((s.flight ++ [(s.next, t.buf j)]).map (·.1)).Nodup
            rw [List.map_append, List.nodup_append]
            refine ⟨I.nd, by simp, ?_⟩
            intro a ha b hb
            obtain ⟨p, hp, rfl⟩ := List.mem_map.1 ha
            have := hfl p hp
            simp at hb
            omega
          · show (s.cur ++ [s.next]).Pairwise _
            rw [List.pairwise_append]
            refine ⟨I.sorted, by simp, ?_⟩
            intro a ha b hb
            have := I.below a ha
            simp at hb
            omega
          · intro i hi
            show i < s.next + 1
            rcases List.mem_append.1 hi with hi | hi
            · have := I.below i hi; omega
            · have := List.mem_singleton.1 hi; omega
          · intro i hi
            show i < s.next + 1
            have := I.old i hi; omega
          · intro j' hj'
            cases hj'
            show (s.cur ++ [s.next]).length = _
            rw [List.length_append, hl]; rfl
          · intro k hk; cases hk
        · injection h with h; subst h
          exact ⟨I.own, I.nd, I.sorted, I.below, I.old, (by intro j hj; cases hj), (by intro k hk; cases hk; intros; omega)⟩
  · rename_i k hpc
    split at h
    · rename_i hn
      injection h with h; subst h
      have hf : s.flight = [] := by
        apply List.eq_nil_iff_forall_not_mem.2
        intro p hp
        obtain ⟨j, hj, _⟩ := I.own p hp
        have h1 := I.wt k hpc p hp j hj
        have h2 := (List.getElem?_eq_some_iff.1 hj).1
        rw [List.getElem?_eq_none_iff] at hn
        omega
      refine ⟨?_, I.nd, List.Pairwise.nil, (by intro i hi; cases hi), I.old, (by intro j hj; cases hj; rfl), (by intro k hk; cases hk)⟩
      intro p hp
      rw [show (St.flight _) = s.flight from rfl, hf] at hp
      cases hp
    · rename_i i hi
      split at h
      · cases h
      · rename_i hany
        split at h
        · injection h with h; subst h
          exact ⟨I.own, I.nd, I.sorted, I.below, I.old, (by intro j hj; cases hj), (by intro k hk; cases hk)⟩
        · injection h with h; subst h
          refine ⟨I.own, I.nd, I.sorted, I.below, I.old, (by intro j hj; cases hj), ?_⟩
          intro k' hk'
          cases hk'
          intro p hp j hj
          have h1 := I.wt k hpc p hp j hj
          rcases Nat.lt_or_ge k j with c | c
          · exact c
          · have : j = k := by omega
            subst this
            have e : s.cur[j]? = some p.1 := hj
            rw [hi] at e
            injection e with e
            exact absurd e.symm (any_false hany p hp)
  · injection h with h; subst h
    refine ⟨I.own, I.nd, I.sorted, I.below, I.old, ?_, ?_⟩
    · intro j hj
      dsimp only at hj
      split at hj <;> cases hj
    · intro j hj
      dsimp only at hj
      split at hj <;> cases hj
  · cases h
  · cases h

theorem serve_eq {t : Tool} {s s' : St} {i : Nat} {err : Bool} (h : step t s (.serve i err) = some s') :
    s.pc ≠ .terminated ∧ s.flight.any (·.1 == i) = true ∧
    s' = { s with flight := s.flight.filter (fun p => p.1 != i),
                  failed := if err then s.failed ++ [i] else s.failed,
                  touched := s.touched || decide (s.pc = .freed) } := by
  unfold step at h
  dsimp only at h
  split at h
  · cases h
  · rename_i hp
    split at h
    · rename_i ha
      injection h with h
      exact ⟨hp, ha, h.symm⟩
    · cases h

theorem step_inv {t : Tool} {s s' : St} {a : Act} (I : Inv t s) (h : step t s a = some s') : Inv t s' := by
  cases a with
  | client th => exact client_inv I h
  | serve i err =>
    obtain ⟨_, ha, rfl⟩ := serve_eq h
    refine ⟨fun p hp => I.own p ((List.mem_filter.1 hp).1), ?_, I.sorted, I.below, ?_, I.sub, fun k hk p hp => I.wt k hk p ((List.mem_filter.1 hp).1)⟩
    · exact List.Nodup.sublist (List.Sublist.map _ List.filter_sublist) I.nd
    · intro x hx
      show x < s.next
      have hx : x ∈ (if err then s.failed ++ [i] else s.failed) := hx
      split at hx
      · rcases List.mem_append.1 hx with hx | hx
        · exact I.old x hx
        · have hx := List.mem_singleton.1 hx
          subst hx
          rw [List.any_eq_true] at ha
          obtain ⟨p, hp, he⟩ := ha
          obtain ⟨j, hj, _⟩ := I.own p hp
          have := I.below _ (List.mem_of_getElem? hj)
          have := eq_of_beq he
          omega
      · exact I.old x hx

theorem run_inv {t : Tool} {l : List Nat} {as : List Act} {s : St} (h : Run t l as s) : Inv t s := by
  induction h with
  | start => exact init_inv t l
  | step _ hs ih => exact step_inv ih hs

theorem submit_nil {t : Tool} {s : St} (I : Inv t s) (hp : s.pc = .submit 0) : s.flight = [] := by
  apply List.eq_nil_iff_forall_not_mem.2
  intro p hp'
  obtain ⟨j, hj, _⟩ := I.own p hp'
  have h1 := I.sub 0 hp
  have h2 := (List.getElem?_eq_some_iff.1 hj).1
  omega

/-- Batches are only left at their start. -/
theorem submit_pos {t : Tool} {l : List Nat} {as : List Act} {s : St} (h : Run t l as s) : ∀ j, s.pc = .submit j → s.batches = [] → j = 0 := by
  induction h with
  | start => intro j hj _; cases hj; rfl
  | step hr hs ih =>
    rename_i as s s' a
    intro j hj hb
    cases a with
    | serve i err =>
      obtain ⟨_, _, rfl⟩ := serve_eq hs
      exact ih j hj hb
    | client th =>
      unfold step client at hs
      dsimp only at hs
      split at hs
      · rename_i j0 hpc
        split at hs
        · injection hs with hs; subst hs; cases hj
        · split at hs
          · injection hs with hs; subst hs; cases hj
          · rename_i n rest hbs
            split at hs
            · injection hs with hs; subst hs
              have hb : s.batches = [] := hb
              rw [hbs] at hb; cases hb
            · injection hs with hs; subst hs; cases hj
      · split at hs
        · injection hs with hs; subst hs; cases hj; rfl
        · split at hs
          · cases hs
          · split at hs
            · injection hs with hs; subst hs; cases hj
            · injection hs with hs; subst hs; cases hj
      · injection hs with hs; subst hs
        dsimp only at hj
        split at hj <;> cases hj
      · cases hs
      · cases hs

theorem run_after {t : Tool} {l : List Nat} {as : List Act} {s : St} (h : Run t l as s) : After t as s := by
  induction h with
  | start => intro h; rcases h with h | h | h <;> cases h
  | step hr hs ih =>
    rename_i as s s' a
    have I := run_inv hr
    cases a with
    | serve i err =>
      obtain ⟨_, _, rfl⟩ := serve_eq hs
      intro h
      obtain ⟨h1, h2⟩ := ih h
      refine ⟨?_, ?_⟩
      · rcases h1 with h1 | h1 | ⟨x, hx, h1⟩
        · left
          show s.flight.filter _ = []
          rw [h1]; rfl
        · exact .inr (.inl (List.mem_append_left _ h1))
        · refine .inr (.inr ⟨x, ?_, fun p hp => h1 p ((List.mem_filter.1 hp).1)⟩)
          show x ∈ (if err then s.failed ++ [i] else s.failed)
          split
          · exact List.mem_append_left _ hx
          · exact hx
      · intro hf hc
        show s.flight.filter _ = []
        rw [h2 hf hc]; rfl
    | client th =>
      have hpos := submit_pos hr
      unfold step client at hs
      dsimp only at hs
      split at hs
      · rename_i j hpc
        split at hs
        · rename_i hth
          injection hs with hs; subst hs
          intro _
          refine ⟨.inr (.inl ?_), ?_⟩
          · subst hth
            exact List.mem_append_right _ List.mem_cons_self
          · intro hf; cases hf
        · split at hs
          · rename_i hbs
            injection hs with hs; subst hs
            have hj := hpos j hpc hbs
            subst hj
            have := submit_nil I hpc
            exact fun _ => ⟨.inl this, fun _ _ => this⟩
          · split at hs
            · injection hs with hs; subst hs
              intro h; rcases h with h | h | h <;> cases h
            · injection hs with hs; subst hs
              intro h; rcases h with h | h | h <;> cases h
      · rename_i k hpc
        split at hs
        · injection hs with hs; subst hs
          intro h; rcases h with h | h | h <;> cases h
        · rename_i i hi
          split at hs
          · cases hs
          · rename_i hany
            split at hs
            · rename_i hfi
              injection hs with hs; subst hs
              intro _
              refine ⟨.inr (.inr ⟨i, List.contains_iff_mem.1 hfi, ?_⟩), ?_⟩
              · intro p hp
                obtain ⟨j, hj, _⟩ := I.own p hp
                have h1 := I.wt k hpc p hp j hj
                rcases Nat.lt_or_ge k j with c | c
                · exact lt_of_sorted I.sorted hi hj c
                · have : j = k := by omega
                  subst this
                  rw [hi] at hj
                  injection hj with hj
                  exact absurd hj.symm (any_false hany p hp)
              · intro hf; cases hf
            · injection hs with hs; subst hs
              intro h; rcases h with h | h | h <;> cases h
      · rename_i hpc
        injection hs with hs; subst hs
        intro _
        obtain ⟨h1, _⟩ := ih (.inl hpc)
        refine ⟨?_, ?_⟩
        · rcases h1 with h1 | h1 | h1
          · exact .inl h1
          · exact .inr (.inl (List.mem_append_left _ h1))
          · exact .inr (.inr h1)
        · intro hf hc
          dsimp only at hf
          rw [hc] at hf
          cases hf
      · cases hs
      · cases hs

theorem run_clean {t : Tool} {l : List Nat} {as : List Act} {s : St} (h : Run t l as s)
    (hc : Act.client true ∉ as) (hs : ∀ i, Act.serve i true ∉ as) : s.failed = [] ∧ s.pc ≠ .thrown ∧ s.pc ≠ .terminated := by
  induction h with
  | start => exact ⟨rfl, (by intro h; cases h), (by intro h; cases h)⟩
  | step hr hst ih =>
    rename_i as s s' a
    obtain ⟨h1, h2, h3⟩ := ih (fun c => hc (List.mem_append_left _ c)) (fun i c => hs i (List.mem_append_left _ c))
    cases a with
    | serve i err =>
      obtain ⟨_, _, rfl⟩ := serve_eq hst
      have : err = false := by
        cases err with
        | false => rfl
        | true => exact absurd (List.mem_append_right _ List.mem_cons_self) (hs i)
      subst this
      exact ⟨h1, h2, h3⟩
    | client th =>
      have : th = false := by
        cases th with
        | false => rfl
        | true => exact absurd (List.mem_append_right _ List.mem_cons_self) hc
      subst this
      unfold step client at hst
      dsimp only at hst
      split at hst
      · rw [if_neg (by decide)] at hst
        split at hst
        · injection hst with hst; subst hst
          exact ⟨h1, (by intro h; cases h), (by intro h; cases h)⟩
        · split at hst
          · injection hst with hst; subst hst
            exact ⟨h1, (by intro h; cases h), (by intro h; cases h)⟩
          · injection hst with hst; subst hst
            exact ⟨h1, (by intro h; cases h), (by intro h; cases h)⟩
      · split at hst
        · injection hst with hst; subst hst
          exact ⟨h1, (by intro h; cases h), (by intro h; cases h)⟩
        · split at hst
          · cases hst
          · rw [h1, if_neg (by simp)] at hst
            injection hst with hst; subst hst
            exact ⟨rfl, (by intro h; cases h), (by intro h; cases h)⟩
      · rename_i hpc; exact absurd hpc h2
      · cases hst
      · cases hst

/-- A request is only served too late if it was in flight when the memory was freed. -/
theorem run_touched {t : Tool} {l : List Nat} {as : List Act} {s : St} (h : Run t l as s) (ht : s.touched = true) :
    ∃ as' s0, Run t l as' s0 ∧ as' <+: as ∧ s0.pc = .freed ∧ s0.flight ≠ [] := by
  induction h with
  | start => cases ht
  | step hr hst ih =>
    rename_i as s s' a
    have old : s.touched = true → ∃ as' s0, Run t l as' s0 ∧ as' <+: as ++ [a] ∧ s0.pc = .freed ∧ s0.flight ≠ [] := by
      intro h
      obtain ⟨as', s0, h1, h2, h3, h4⟩ := ih h
      exact ⟨as', s0, h1, h2.trans (List.prefix_append _ _), h3, h4⟩
    cases a with
    | serve i err =>
      obtain ⟨_, ha, rfl⟩ := serve_eq hst
      have ht : (s.touched || decide (s.pc = .freed)) = true := ht
      rw [Bool.or_eq_true] at ht
      rcases ht with ht | ht
      · exact old ht
      · refine ⟨as, s, hr, List.prefix_append _ _, of_decide_eq_true ht, ?_⟩
        intro c
        rw [c] at ha
        cases ha
    | client th =>
      apply old
      unfold step client at hst
      dsimp only at hst
      repeat' split at hst
      all_goals first
        | (injection hst with hst; subst hst; exact ht)
        | cases hst

theorem bufs_nodup {t : Tool} {s : St} (I : Inv t s) (hb : ∀ i j, t.buf i = t.buf j → i = j) : (s.flight.map (·.2)).Nodup := by
  have nd := I.nd
  have own := I.own
  revert nd own
  generalize s.flight = f
  intro nd own
  induction f with
  | nil => exact List.nodup_nil
  | cons p f ih =>
    rw [List.map_cons, List.nodup_cons] at nd ⊢
    refine ⟨?_, ih nd.2 (fun q hq => own q (List.mem_cons_of_mem _ hq))⟩
    intro hm
    obtain ⟨q, hq, he⟩ := List.mem_map.1 hm
    obtain ⟨j, hj, hbj⟩ := own p List.mem_cons_self
    obtain ⟨k, hk, hbk⟩ := own q (List.mem_cons_of_mem _ hq)
    have : j = k := hb _ _ (by rw [← hbj, ← hbk, he])
    subst this
    rw [hj] at hk
    injection hk with hk
    exact nd.1 (List.mem_map.2 ⟨q, hq, hk.symm⟩)

/-- The state after given actions. -/
def play (t : Tool) : List Act → St → Option St
  | [], s => some s
  | a :: as, s => (step t s a).bind (play t as)

theorem play_run {t : Tool} {l : List Nat} : ∀ {as bs : List Act} {s s' : St}, Run t l bs s → play t as s = some s' → Run t l (bs ++ as) s' := by
  intro as
  induction as with
  | nil =>
    intro bs s s' hr h
    injection h with h
    subst h
    rw [List.append_nil]; exact hr
  | cons a as ih =>
    intro bs s s' hr h
    unfold play at h
    cases hst : step t s a with
    | none => rw [hst] at h; cases h
    | some s1 =>
      rw [hst] at h
      have := ih (Run.step hr hst) h
      rw [List.append_assoc] at this
      exact this

theorem check_zero {a b : Version} : check a b = 0 ↔ a = b := by
  unfold check
  cases a; cases b
  dsimp only
  split
  · constructor
    · intro h; cases h
    · intro h; injection h with h1 h2 h3; contradiction
  · split
    · constructor
      · intro h; cases h
      · intro h; injection h with h1 h2 h3; contradiction
    · split
      · constructor
        · intro h; cases h
        · intro h; injection h with h1 h2 h3; contradiction
      · constructor
        · rename_i h1 h2 h3
          intro _
          rw [Decidable.not_not.1 h1, Decidable.not_not.1 h2, Decidable.not_not.1 h3]
        · intro _; rfl

theorem find_sub {a : List Char} {n : String} (h : subtools.find? (fun n => n.toList == a) = some n) : n ∈ subtools ∧ n.toList = a :=
  ⟨List.mem_of_find?_eq_some h, by have := List.find?_some (p := fun n : String => n.toList == a) h; exact eq_of_beq this⟩

theorem find_known {n : String} (h : n ∈ subtools) : subtools.find? (fun m => m.toList == n.toList) = some n := by
  have : ∀ m ∈ subtools, subtools.find? (fun k => k.toList == m.toList) = some m := by decide
  exact this n h

theorem find_unknown {a : List Char} (h : ∀ n ∈ subtools, n.toList ≠ a) : subtools.find? (fun m => m.toList == a) = none := by
  rw [List.find?_eq_none]
  intro n hn c
  exact h n hn (eq_of_beq c)

end Foxxll.Tools
