/-
Helper lemmas for C121-C124: lost blocks, histories without failures, `free_blocks_size`, destructors.
-/
import Verif.Proofs.PoolFail

namespace Foxxll.PoolFail

/-! ### What the methods of the write pool leave alone -/

theorem wsteal_frame {s s' : St} {evs : List (List Ev)} {p : Nat} (hs : wsteal s evs = .ok (s', p)) : SameButW s s' := by
  unfold wsteal at hs
  split at hs
  · cases hs
  · split at hs
    · injection hs with hs
      obtain ⟨rfl, rfl⟩ := Prod.mk.inj hs
      exact ⟨_, _, _, _, rfl, fun _ h => h⟩
    · obtain ⟨q', err', hw, hq, he', hj⟩ := waitAny_spec s evs
      split at hs
      · cases hs
      · cases hs
      · rename_i s1 evs1 i hwa
        rw [hwa] at hw
        simp only at hw
        have h1 : SameButW s s1 := ⟨q', err', s.wfree, s.wbusy, hw, he'⟩
        split at hs
        · cases hs
        · split at hs
          · rename_i s2 hc
            injection hs with hs
            obtain ⟨rfl, rfl⟩ := Prod.mk.inj hs
            exact h1.trans (checkBusy_frame _ _ _ _ _ (Or.inl hc))
          all_goals cases hs

/-- The blocks `steal` loses. -/
theorem wsteal_throw_frame {s s' : St} {evs : List (List Ev)} (hs : wsteal s evs = .throw s') :
    ∃ t l, SameButW s t ∧ l.length ≤ 1 ∧ s' = { t with leaked := t.leaked ++ l } := by
  unfold wsteal at hs
  split at hs
  · cases hs
  · split at hs
    · cases hs
    · obtain ⟨q', err', hw, hq, he', hj⟩ := waitAny_spec s evs
      split at hs
      · cases hs
      · rename_i s1 evs1 hwa
        injection hs with hs; subst hs
        rw [hwa] at hw
        simp only at hw
        exact ⟨s1, [], ⟨q', err', s.wfree, s.wbusy, hw, he'⟩, by simp, by simp⟩
      · rename_i s1 evs1 i hwa
        rw [hwa] at hw
        simp only at hw
        have h1 : SameButW s s1 := ⟨q', err', s.wfree, s.wbusy, hw, he'⟩
        split at hs
        · cases hs
        · rename_i e _
          split at hs
          · cases hs
          · rename_i s2 hc
            injection hs with hs; subst hs
            exact ⟨s2, [e.blk], h1.trans (checkBusy_frame _ _ _ _ _ (Or.inr hc)), by simp, rfl⟩
          all_goals cases hs

/-- `s'` is `s` but for the write pool, `deleted` and `nextBlk`, and lost blocks `l`. -/
def SameP (l : List Nat) (s s' : St) : Prop :=
  s'.pfree = s.pfree ∧ s'.pfs = s.pfs ∧ s'.pbusy = s.pbusy ∧ s'.leaked = s.leaked ++ l ∧ s'.dead = s.dead ∧ (∀ r ∈ s.err, r ∈ s'.err) ∧
    s'.upend = s.upend ∧ s'.uidle = s.uidle

theorem SameButW.sameP {s s' : St} (h : SameButW s s') : SameP [] s s' := by
  obtain ⟨q1, e1, f1, b1, rfl, he1⟩ := h
  exact ⟨rfl, rfl, rfl, by simp, rfl, he1, rfl, rfl⟩

theorem stealN_frame {s s' : St} {evss : List (List (List Ev))} {k : Nat} :
    (stealN s evss k = .ok s' → SameP [] s s') ∧
    (stealN s evss k = .throw s' → ∃ l, l.length ≤ 1 ∧ SameP l s s') := by
  induction k generalizing s evss with
  | zero =>
    simp only [stealN]
    refine ⟨fun hs => ?_, fun hs => (by cases hs)⟩
    injection hs with hs; subst hs
    exact (SameButW.refl s).sameP
  | succ k ih =>
    simp only [stealN]
    cases hw : wsteal s (evss.headD []) with
    | ok r =>
      obtain ⟨s1, p⟩ := r
      obtain ⟨a1, a2, a3, a4, a5, a6, a7, a8⟩ := (wsteal_frame hw).sameP
      simp only
      obtain ⟨i1, i2⟩ := ih (s := { s1 with deleted := s1.deleted ++ [p] }) (evss := evss.tail)
      constructor
      · intro hs
        obtain ⟨b1, b2, b3, b4, b5, b6, b7, b8⟩ := i1 hs
        exact ⟨b1.trans a1, b2.trans a2, b3.trans a3, by rw [b4]; simp [a4], b5.trans a5, fun r hr => b6 r (a6 r hr), b7.trans a7, b8.trans a8⟩
      · intro hs
        obtain ⟨l, hl, b1, b2, b3, b4, b5, b6, b7, b8⟩ := i2 hs
        exact ⟨l, hl, b1.trans a1, b2.trans a2, b3.trans a3, by rw [b4]; simp [a4], b5.trans a5, fun r hr => b6 r (a6 r hr), b7.trans a7, b8.trans a8⟩
    | throw s1 =>
      refine ⟨fun hs => (by cases hs), fun hs => ?_⟩
      injection hs with hs; subst hs
      obtain ⟨t, l, ht, hl, rfl⟩ := wsteal_throw_frame hw
      obtain ⟨a1, a2, a3, a4, a5, a6, a7, a8⟩ := ht.sameP
      exact ⟨l, hl, a1, a2, a3, by simp [a4], a5, a6, a7, a8⟩
    | blocked => exact ⟨fun hs => (by cases hs), fun hs => (by cases hs)⟩
    | assertFail => exact ⟨fun hs => (by cases hs), fun hs => (by cases hs)⟩
    | die => exact ⟨fun hs => (by cases hs), fun hs => (by cases hs)⟩
    | ub => exact ⟨fun hs => (by cases hs), fun hs => (by cases hs)⟩

theorem wresize_frame {s s' : St} {n k : Nat} {evss : List (List (List Ev))} :
    (wresize s n k evss = .ok s' → SameP [] s s') ∧
    (wresize s n k evss = .throw s' → ∃ l, l.length ≤ 1 ∧ SameP l s s') := by
  unfold wresize
  split
  · simp only
    split
    · refine ⟨fun hs => (by cases hs), fun hs => ?_⟩
      injection hs with hs; subst hs
      exact ⟨[], by simp, rfl, rfl, rfl, by simp, rfl, fun r hr => hr, rfl, rfl⟩
    · refine ⟨fun hs => ?_, fun hs => (by cases hs)⟩
      injection hs with hs; subst hs
      exact ⟨rfl, rfl, rfl, by simp, rfl, fun r hr => hr, rfl, rfl⟩
  · exact stealN_frame

/-! ### Prefetch pool -/

/-- Lost blocks `l` and a list of free blocks that changes with its counter. -/
def PStep (l : List Nat) (s s' : St) : Prop :=
  s'.leaked = s.leaked ++ l ∧ s'.pfree.length + s.pfs = s.pfree.length + s'.pfs

theorem SameP.pstep {l : List Nat} {s s' : St} (h : SameP l s s') : PStep l s s' := by
  obtain ⟨a1, a2, _, a4, _⟩ := h
  exact ⟨a4, by rw [a1, a2] <;> omega⟩

theorem PStep.trans {l m : List Nat} {s t u : St} (h1 : PStep l s t) (h2 : PStep m t u) : PStep (l ++ m) s u := by
  obtain ⟨a1, a2⟩ := h1
  obtain ⟨b1, b2⟩ := h2
  exact ⟨by rw [b1, a1]; simp, by omega⟩

theorem getLast?_length {l : List Nat} {p : Nat} (h : l.getLast? = some p) : l.length = l.dropLast.length + 1 := by
  have hne : l ≠ [] := by intro hh; rw [hh] at h; simp at h
  have := List.length_pos_iff.2 hne
  simp; omega

theorem hint_frame {s s' : St} {bid : Nat} {u sub : Bool} :
    (hint s bid u sub = .ok s' → PStep [] s s') ∧
    (hint s bid u sub = .throw s' → sub = true ∧ ∃ b, PStep [b] s s') := by
  unfold hint
  split
  · exact ⟨fun hs => by injection hs with hs; subst hs; exact ⟨by simp, by omega⟩, fun hs => (by cases hs)⟩
  · split
    · exact ⟨fun hs => by injection hs with hs; subst hs; exact ⟨by simp, by omega⟩, fun hs => (by cases hs)⟩
    · rename_i hne
      split
      · exact ⟨fun hs => (by cases hs), fun hs => (by cases hs)⟩
      · rename_i blk hp
        have hlen := getLast?_length hp
        simp only
        split
        · refine ⟨fun hs => ?_, fun hs => (by cases hs)⟩
          injection hs with hs; subst hs
          exact ⟨by simp, by simp only; omega⟩
        · split
          · rename_i hsub
            refine ⟨fun hs => (by cases hs), fun hs => ⟨hsub, blk, ?_⟩⟩
            injection hs with hs; subst hs
            exact ⟨by simp, by simp only; omega⟩
          · refine ⟨fun hs => ?_, fun hs => (by cases hs)⟩
            injection hs with hs; subst hs
            exact ⟨by simp [submit], by simp only [submit]; omega⟩

theorem invalidate_frame {s s' : St} {bid : Nat} {canc b : Bool} {evs : List Ev} :
    (invalidate s bid canc evs = .ok (s', b) → PStep [] s s') ∧ (invalidate s bid canc evs = .throw s' → PStep [] s s') := by
  unfold invalidate
  split
  · refine ⟨fun hs => ?_, fun hs => (by cases hs)⟩
    injection hs with hs; obtain ⟨rfl, rfl⟩ := Prod.mk.inj hs; exact ⟨by simp, by omega⟩
  · rename_i e he
    obtain ⟨q', err', h1, hq, _⟩ := inval_frame s e canc evs
    simp only [h1]
    split
    · exact ⟨fun hs => (by cases hs), fun hs => (by cases hs)⟩
    · split
      · refine ⟨fun hs => (by cases hs), fun hs => ?_⟩
        injection hs with hs; subst hs; exact ⟨by simp, by simp only <;> omega⟩
      · refine ⟨fun hs => ?_, fun hs => (by cases hs)⟩
        injection hs with hs; obtain ⟨rfl, rfl⟩ := Prod.mk.inj hs
        exact ⟨by simp, by simp; omega⟩

theorem wwrite_frame {s s' : St} {blk bid : Nat} {canc : List Nat} {sub : Bool} :
    (wwrite s blk bid canc sub = .ok s' → PStep [] s s' ∧ s'.pbusy = s.pbusy ∧ s'.err = s.err) ∧
    (wwrite s blk bid canc sub = .throw s' → sub = true ∧ PStep [] s s') := by
  unfold wwrite
  split
  · exact ⟨fun hs => (by cases hs), fun hs => (by cases hs)⟩
  · simp only
    split
    · rename_i hsub
      refine ⟨fun hs => (by cases hs), fun hs => ⟨hsub, ?_⟩⟩
      injection hs with hs; subst hs; exact ⟨by simp [dropStale], by simp [dropStale] <;> omega⟩
    · refine ⟨fun hs => ?_, fun hs => (by cases hs)⟩
      injection hs with hs; subst hs; exact ⟨⟨by simp [dropStale, submit], by simp [dropStale, submit] <;> omega⟩, rfl, rfl⟩

theorem write_frame {s s' : St} {blk bid : Nat} {cw : List Nat} {sw cp sp : Bool} {evs : List Ev} :
    (write s blk bid cw sw cp evs sp = .ok s' → PStep [] s s') ∧
    (write s blk bid cw sw cp evs sp = .throw s' → ∃ l, l.length ≤ 1 ∧ PStep l s s') := by
  unfold write
  cases hw : wwrite s blk bid cw sw with
  | ok s1 =>
    have h1 := (wwrite_frame.1 hw).1
    simp only
    cases hi : invalidate s1 bid cp evs with
    | ok r =>
      obtain ⟨s2, b⟩ := r
      have h2 := h1.trans (invalidate_frame.1 hi)
      cases b with
      | true =>
        simp only
        refine ⟨fun hs => h2.trans (hint_frame.1 hs), fun hs => ?_⟩
        obtain ⟨_, b, hb⟩ := hint_frame.2 hs
        exact ⟨[b], by simp, h2.trans hb⟩
      | false =>
        refine ⟨fun hs => ?_, fun hs => (by cases hs)⟩
        injection hs with hs; subst hs; exact h2
    | throw s2 =>
      refine ⟨fun hs => (by cases hs), fun hs => ?_⟩
      injection hs with hs; subst hs
      exact ⟨[], by simp, h1.trans ((invalidate_frame (b := false)).2 hi)⟩
    | blocked => exact ⟨fun hs => (by cases hs), fun hs => (by cases hs)⟩
    | assertFail => exact ⟨fun hs => (by cases hs), fun hs => (by cases hs)⟩
    | die => exact ⟨fun hs => (by cases hs), fun hs => (by cases hs)⟩
    | ub => exact ⟨fun hs => (by cases hs), fun hs => (by cases hs)⟩
  | throw s1 =>
    refine ⟨fun hs => (by cases hs), fun hs => ?_⟩
    injection hs with hs; subst hs
    exact ⟨[], by simp, (wwrite_frame.2 hw).2⟩
  | blocked => exact ⟨fun hs => (by cases hs), fun hs => (by cases hs)⟩
  | assertFail => exact ⟨fun hs => (by cases hs), fun hs => (by cases hs)⟩
  | die => exact ⟨fun hs => (by cases hs), fun hs => (by cases hs)⟩
  | ub => exact ⟨fun hs => (by cases hs), fun hs => (by cases hs)⟩

theorem read_frame {s s' : St} {blk bid : Nat} {u sub : Bool} :
    (read s blk bid u sub = .ok s' → PStep [] s s') ∧ (read s blk bid u sub = .throw s' → s' = s) := by
  unfold read
  split
  · refine ⟨fun hs => ?_, fun hs => (by cases hs)⟩
    injection hs with hs; subst hs; exact ⟨by simp, by simp; omega⟩
  · split
    · refine ⟨fun hs => ?_, fun hs => (by cases hs)⟩
      injection hs with hs; subst hs; exact ⟨by simp, by simp <;> omega⟩
    · split
      · refine ⟨fun hs => (by cases hs), fun hs => ?_⟩
        injection hs with hs; exact hs.symm
      · refine ⟨fun hs => ?_, fun hs => (by cases hs)⟩
        injection hs with hs; subst hs; exact ⟨by simp [submit], by simp [submit] <;> omega⟩

/-- Operations on `free_blocks_size` that may change it without the list. -/
def growsP : Op → Prop
  | .resizeP _ _ => True
  | .destroy _ _ _ => True
  | .stealP => True
  | _ => False

/-- Is the operation a destructor? -/
def isDestroy : Op → Bool
  | .destroy _ _ _ => true
  | _ => false

theorem step_frame {s s' : St} {op : Op} (hp : ¬ growsP op) :
    (step s op = .ok s' → PStep [] s s') ∧ (step s op = .throw s' → ∃ l, l.length ≤ 1 ∧ PStep l s s') := by
  cases op with
  | alloc =>
    refine ⟨fun hs => ?_, fun hs => (by cases hs)⟩
    injection hs with hs; subst hs; exact ⟨by simp, by simp only <;> omega⟩
  | write blk bid cw sw cp evs sp => exact write_frame
  | hint bid u sub =>
    refine ⟨hint_frame.1, fun hs => ?_⟩
    obtain ⟨_, b, hb⟩ := hint_frame.2 hs
    exact ⟨[b], by simp, hb⟩
  | read blk bid u sub =>
    refine ⟨read_frame.1, fun hs => ?_⟩
    have := read_frame.2 hs
    subst this
    exact ⟨[], by simp, by simp [PStep] <;> omega⟩
  | invalidate bid c evs =>
    simp only [step]
    cases hi : invalidate s bid c evs with
    | ok r =>
      obtain ⟨s1, b⟩ := r
      refine ⟨fun hs => ?_, fun hs => (by cases hs)⟩
      injection hs with hs; subst hs; exact invalidate_frame.1 hi
    | throw s1 =>
      refine ⟨fun hs => (by cases hs), fun hs => ?_⟩
      injection hs with hs; subst hs; exact ⟨[], by simp, (invalidate_frame (b := false)).2 hi⟩
    | blocked => exact ⟨fun hs => (by cases hs), fun hs => (by cases hs)⟩
    | assertFail => exact ⟨fun hs => (by cases hs), fun hs => (by cases hs)⟩
    | die => exact ⟨fun hs => (by cases hs), fun hs => (by cases hs)⟩
    | ub => exact ⟨fun hs => (by cases hs), fun hs => (by cases hs)⟩
  | poll bid =>
    simp only [step]
    cases hi : pollHint s bid with
    | ok r =>
      refine ⟨fun hs => ?_, fun hs => (by cases hs)⟩
      injection hs with hs; subst hs; exact ⟨by simp, by omega⟩
    | throw s1 =>
      refine ⟨fun hs => (by cases hs), fun hs => ?_⟩
      injection hs with hs; subst hs
      have : s1 = s := by
        unfold pollHint at hi
        split at hi
        · cases hi
        · split at hi
          · injection hi with hi; exact hi.symm
          · cases hi
      subst this
      exact ⟨[], by simp, by simp [PStep] <;> omega⟩
    | blocked => exact ⟨fun hs => (by cases hs), fun hs => (by cases hs)⟩
    | assertFail => exact ⟨fun hs => (by cases hs), fun hs => (by cases hs)⟩
    | die => exact ⟨fun hs => (by cases hs), fun hs => (by cases hs)⟩
    | ub => exact ⟨fun hs => (by cases hs), fun hs => (by cases hs)⟩
  | steal evs =>
    simp only [step]
    cases hw : wsteal s evs with
    | ok r =>
      obtain ⟨s1, p⟩ := r
      refine ⟨fun hs => ?_, fun hs => (by cases hs)⟩
      injection hs with hs; subst hs
      obtain ⟨a1, a2⟩ := (wsteal_frame hw).sameP.pstep
      exact ⟨a1, a2⟩
    | throw s1 =>
      refine ⟨fun hs => (by cases hs), fun hs => ?_⟩
      injection hs with hs; subst hs
      obtain ⟨t, l, ht, hl, rfl⟩ := wsteal_throw_frame hw
      obtain ⟨a1, a2⟩ := ht.sameP.pstep
      exact ⟨l, hl, by simp [a1], a2⟩
    | blocked => exact ⟨fun hs => (by cases hs), fun hs => (by cases hs)⟩
    | assertFail => exact ⟨fun hs => (by cases hs), fun hs => (by cases hs)⟩
    | die => exact ⟨fun hs => (by cases hs), fun hs => (by cases hs)⟩
    | ub => exact ⟨fun hs => (by cases hs), fun hs => (by cases hs)⟩
  | add blk =>
    refine ⟨fun hs => ?_, fun hs => (by cases hs)⟩
    injection hs with hs; subst hs; exact ⟨by simp, by simp only <;> omega⟩
  | stealP => exact absurd trivial hp
  | addP blk =>
    refine ⟨fun hs => ?_, fun hs => (by cases hs)⟩
    injection hs with hs; subst hs; exact ⟨by simp, by simp; omega⟩
  | resizeW n k evss =>
    refine ⟨fun hs => (wresize_frame.1 hs).pstep, fun hs => ?_⟩
    obtain ⟨l, hl, h⟩ := wresize_frame.2 hs
    exact ⟨l, hl, h.pstep⟩
  | resizeP n k => exact absurd trivial hp
  | collect i =>
    simp only [step]
    split
    · exact ⟨fun hs => (by cases hs), fun hs => (by cases hs)⟩
    · split
      · exact ⟨fun hs => (by cases hs), fun hs => (by cases hs)⟩
      · split
        · refine ⟨fun hs => (by cases hs), fun hs => ?_⟩
          injection hs with hs; subst hs; exact ⟨[], by simp, by simp, by simp only <;> omega⟩
        · refine ⟨fun hs => ?_, fun hs => (by cases hs)⟩
          injection hs with hs; subst hs; exact ⟨by simp, by simp only <;> omega⟩
  | destroy e1 e2 ord => exact absurd trivial hp
  | ev e =>
    refine ⟨fun hs => ?_, fun hs => (by cases hs)⟩
    injection hs with hs; subst hs
    obtain ⟨q', err', h1, _⟩ := event_frame s e
    rw [h1]; exact ⟨by simp, by simp only <;> omega⟩

theorem presize_leaked {s s' : St} {n k : Nat} (hs : presize s n k = .ok s' ∨ presize s n k = .throw s') : s'.leaked = s.leaked := by
  unfold presize at hs
  split at hs
  · simp only at hs
    split at hs
    · rcases hs with hs | hs
      · cases hs
      · injection hs with hs; subst hs; rfl
    · rcases hs with hs | hs
      · injection hs with hs; subst hs; rfl
      · cases hs
  · simp only at hs
    split at hs
    · rcases hs with hs | hs <;> cases hs
    · rcases hs with hs | hs
      · injection hs with hs; subst hs; rfl
      · cases hs

/-- Lost blocks of a step that is not a destructor. -/
theorem step_leaked {s s' : St} {op : Op} (hp : isDestroy op = false) :
    (step s op = .ok s' → s'.leaked = s.leaked) ∧
    (step s op = .throw s' → ∃ l, l.length ≤ 1 ∧ s'.leaked = s.leaked ++ l) := by
  by_cases hg : growsP op
  · cases op with
    | stealP =>
      simp only [step]
      split
      · exact ⟨fun hs => (by cases hs), fun hs => (by cases hs)⟩
      · refine ⟨fun hs => ?_, fun hs => (by cases hs)⟩
        injection hs with hs; subst hs; rfl
    | resizeP n k =>
      exact ⟨fun hs => presize_leaked (Or.inl hs), fun hs => ⟨[], by simp, by rw [presize_leaked (Or.inr hs)]; simp⟩⟩
    | destroy a b c => cases hp
    | _ => exact absurd hg (by simp [growsP])
  · refine ⟨fun hs => by have := ((step_frame hg).1 hs).1; simpa using this, fun hs => ?_⟩
    obtain ⟨l, hl, h⟩ := (step_frame hg).2 hs
    exact ⟨l, hl, h.1⟩

/-! ### `free_blocks_size` -/

theorem destroy_end {s s' : St} {evs : List (List Ev)} {L : List (Nat × Nat)} (hs : destroyLoop s evs L = .ok s') :
    s'.wfree = s.wfree ∧ s'.wbusy = s.wbusy ∧ s'.pfree = s.pfree ∧ s'.pfs = s.pfs ∧ s'.pbusy = s.pbusy ∧ s'.upend = s.upend ∧
      s'.uidle = s.uidle ∧ s'.dead = s.dead ∧ (∀ r ∈ s.err, r ∈ s'.err) ∧ (∀ x ∈ s'.q, x ∈ s.q) ∧
      ∃ dl ll, s'.deleted = s.deleted ++ dl ∧ s'.leaked = s.leaked ++ ll ∧ dl ++ ll = L.map (·.1) := by
  induction L generalizing s evs with
  | nil =>
    simp only [destroyLoop] at hs
    injection hs with hs; subst hs
    exact ⟨rfl, rfl, rfl, rfl, rfl, rfl, rfl, rfl, fun r hr => hr, fun x hx => hx, [], [], by simp, by simp, rfl⟩
  | cons p L ih =>
    obtain ⟨b, r⟩ := p
    simp only [destroyLoop] at hs
    obtain ⟨q', err', h1, hq, he⟩ := events_frame s (evs.headD [])
    rw [h1] at hs
    split at hs
    · cases hs
    · split at hs
      · injection hs with hs; subst hs
        exact ⟨rfl, rfl, rfl, rfl, rfl, rfl, rfl, rfl, he, hq, [], b :: L.map (·.1), by simp, rfl, by simp⟩
      · obtain ⟨a1, a2, a3, a4, a5, a6, a7, a8, a9, a10, dl, ll, a11, a12, a13⟩ := ih hs
        exact ⟨a1, a2, a3, a4, a5, a6, a7, a8, fun r hr => a9 r (he r hr), fun x hx => hq x (a10 x hx), b :: dl, ll,
          by rw [a11]; simp, a12, by simp [a13]⟩

theorem destroy_ok {s s' : St} {e1 e2 : List (List Ev)} {ord : List PEnt} (hs : destroy s e1 e2 ord = .ok s') :
    ∃ s1 s2, destroyW s e1 = .ok s1 ∧ destroyP s1 e2 ord = .ok s2 ∧ s' = { s2 with dead := true } := by
  unfold destroy at hs
  split at hs
  · rename_i s1 h1
    split at hs
    · rename_i s2 h2
      injection hs with hs
      exact ⟨s1, s2, h1, h2, hs.symm⟩
    · rename_i hne
      exact absurd hs (hne s')
  · rename_i hne
    exact absurd hs (hne s')

theorem destroy_empty {s s' : St} {e1 e2 : List (List Ev)} {ord : List PEnt} (hs : destroy s e1 e2 ord = .ok s') :
    s'.wfree = [] ∧ s'.wbusy = [] ∧ s'.pfree = [] ∧ s'.pfs = 0 ∧ s'.pbusy = [] ∧ s'.dead = true ∧ s'.upend = s.upend ∧ s'.uidle = s.uidle := by
  obtain ⟨s1, s2, h1, h2, rfl⟩ := destroy_ok hs
  obtain ⟨a1, a2, a3, a4, a5, a6, a7, _⟩ := destroy_end h1
  unfold destroyP at h2
  split at h2
  · obtain ⟨b1, b2, b3, b4, b5, b6, b7, _⟩ := destroy_end h2
    exact ⟨b1.trans a1, b2.trans a2, b3, b4, b5, rfl, b6.trans a6, b7.trans a7⟩
  · cases h2

theorem pfs_step {s s' : St} {op : Op} (h : s.pfree.length ≤ s.pfs) (hs : step s op = .ok s' ∨ step s op = .throw s') :
    s'.pfree.length ≤ s'.pfs := by
  by_cases hg : growsP op
  · cases op with
    | stealP =>
      simp only [step] at hs
      split at hs
      · rcases hs with hs | hs <;> cases hs
      · rename_i p hp
        have := getLast?_length hp
        rcases hs with hs | hs
        · injection hs with hs; subst hs; simp only; omega
        · cases hs
    | resizeP n k =>
      simp only [step, presize] at hs
      split at hs
      · split at hs
        · rcases hs with hs | hs
          · cases hs
          · injection hs with hs; subst hs; simp; omega
        · rcases hs with hs | hs
          · injection hs with hs; subst hs; simp; omega
          · cases hs
      · split at hs
        · rcases hs with hs | hs <;> cases hs
        · rcases hs with hs | hs
          · injection hs with hs; subst hs; simp; omega
          · cases hs
    | destroy a b c =>
      rcases hs with hs | hs
      · obtain ⟨_, _, h3, h4, _⟩ := destroy_empty hs
        rw [h3, h4]; simp
      · exact absurd hs (destroy_no_throw _ _ _ _ _)
    | _ => exact absurd hg (by simp [growsP])
  · rcases hs with hs | hs
    · have := ((step_frame hg).1 hs).2; omega
    · obtain ⟨l, _, h1⟩ := (step_frame hg).2 hs
      have := h1.2; omega

/-- No `new` fails in `prefetch_pool::resize`. -/
def allocOk : Op → Prop
  | .resizeP n k => n ≤ k
  | _ => True

theorem pfs_step_eq {s s' : St} {op : Op} (h : s.pfs = s.pfree.length) (ha : allocOk op)
    (hs : step s op = .ok s' ∨ step s op = .throw s') : s'.pfs = s'.pfree.length := by
  by_cases hg : growsP op
  · cases op with
    | stealP =>
      simp only [step] at hs
      split at hs
      · rcases hs with hs | hs <;> cases hs
      · rename_i p hp
        have := getLast?_length hp
        rcases hs with hs | hs
        · injection hs with hs; subst hs; simp only; omega
        · cases hs
    | resizeP n k =>
      simp only [allocOk] at ha
      simp only [step, presize] at hs
      split at hs
      · split at hs
        · omega
        · rcases hs with hs | hs
          · injection hs with hs; subst hs; simp; omega
          · cases hs
      · split at hs
        · rcases hs with hs | hs <;> cases hs
        · rcases hs with hs | hs
          · injection hs with hs; subst hs; simp; omega
          · cases hs
    | destroy a b c =>
      rcases hs with hs | hs
      · obtain ⟨_, _, h3, h4, _⟩ := destroy_empty hs
        rw [h3, h4]; simp
      · exact absurd hs (destroy_no_throw _ _ _ _ _)
    | _ => exact absurd hg (by simp [growsP])
  · rcases hs with hs | hs
    · have := ((step_frame hg).1 hs).2; omega
    · obtain ⟨l, _, h1⟩ := (step_frame hg).2 hs
      have := h1.2; omega

theorem reach_pfs {A : Op → Prop} {s : St} (h : Reach A s) : s.pfree.length ≤ s.pfs := by
  induction h with
  | start nw np => simp [init]
  | ok op _ _ _ hs ih => exact pfs_step ih (Or.inl hs)
  | throw op _ _ _ hs ih => exact pfs_step ih (Or.inr hs)

theorem reach_pfs_eq {s : St} (h : Reach allocOk s) : s.pfs = s.pfree.length := by
  induction h with
  | start nw np => simp [init]
  | ok op _ ha _ hs ih => exact pfs_step_eq ih ha (Or.inl hs)
  | throw op _ ha _ hs ih => exact pfs_step_eq ih ha (Or.inr hs)

end Foxxll.PoolFail
