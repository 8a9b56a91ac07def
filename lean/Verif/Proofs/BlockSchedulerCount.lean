import Verif.Proofs.BlockScheduler

set_option linter.unusedSimpArgs false
set_option linter.unusedVariables false

namespace Foxxll.Swap

variable {D : Type}

/-! ### Forgetting the data -/

def St.er (s : St D) : St Unit :=
  { max := s.max, remaining := s.remaining, next := s.next, free := s.free, n := s.n, blocks := s.blocks, freeIds := s.freeIds, mode := s.mode, evict := s.evict, mem := fun _ => (), disk := fun _ => (), held := s.held }

def Env.er (E : Env D) : Env Unit := { pick := E.pick, fill := fun _ => () }

def Op.er : Op D → Op Unit
  | .acquire id u => .acquire id u
  | .write id _ => .write id ()
  | .release id dirty pr => .release id dirty pr
  | .deinit id => .deinit id
  | .init id e => .init id e
  | .extract id => .extract id
  | .flush => .flush
  | .alloc => .alloc
  | .free id => .free id
  | .client _ => .client ()
  | .retag m l => .retag m l

theorem er_set (s : St D) (id : Nat) (b : SB) : (s.set id b).er = s.er.set id b := rfl

theorem er_unit (s : St Unit) : s.er = s := by
  cases s; rfl

theorem er_getFreeBs (s : St D) : getFreeBs s.er = ((getFreeBs s).1, (getFreeBs s).2.er) := by
  have h1 : s.er.free = s.free := rfl
  have h2 : s.er.remaining = s.remaining := rfl
  unfold getFreeBs
  rw [h1, h2]
  cases s.free with
  | cons p rest => rfl
  | nil =>
    by_cases h : 0 < s.remaining
    · simp only [h, if_true]; rfl
    · simp only [h, if_false]

theorem er_clean (E : Env D) (s : St D) (id : Nat) : clean E.er s.er id = (clean E s id).map St.er := by
  have h1 : s.er.blocks = s.blocks := rfl
  unfold clean
  rw [h1]
  simp only
  cases (s.blocks id).dirty with
  | false => rfl
  | true =>
    cases hi : (s.blocks id).int with
    | none => rfl
    | some p =>
      simp only [if_true, Option.map_some]
      rfl

theorem er_detach (E : Env D) (s : St D) (id : Nat) : detach E.er s.er id = (detach E s id).map fun r => (r.1, r.2.er) := by
  have h1 : s.er.blocks = s.blocks := rfl
  unfold detach
  rw [h1, er_clean]
  cases (s.blocks id).isEvictable with
  | false => rfl
  | true =>
    simp only [if_true]
    cases clean E s id with
    | none => rfl
    | some s1 =>
      simp only [Option.map_some, Option.bind_some]
      have h2 : s1.er.blocks = s1.blocks := rfl
      rw [h2]
      cases (s1.blocks id).int with
      | none => rfl
      | some p => rfl

theorem er_getFree (E : Env D) (s : St D) : getFree E.er s.er = (getFree E s).map fun r => (r.1, r.2.er) := by
  unfold getFree
  rw [er_getFreeBs]
  cases hg : getFreeBs s with
  | mk o s1 =>
    cases o with
    | some p => rfl
    | none =>
      simp only
      have h1 : s1.er.mode = s1.mode := rfl
      have h2 : s1.er.evict = s1.evict := rfl
      rw [h1, h2]
      cases popEvict s1.mode s1.evict with
      | none => rfl
      | some xr =>
        simp only
        exact er_detach E { s1 with evict := xr.2 } xr.1.2

theorem er_acquire (E : Env D) (s : St D) (id : Nat) (u : Bool) : acquire E.er s.er id u = (acquire E s id u).map fun r => (r.1, r.2.er) := by
  have h1 : s.er.blocks = s.blocks := rfl
  have h2 : s.er.n = s.n := rfl
  have h3 : s.er.evict = s.evict := rfl
  unfold acquire
  rw [h1, h2, h3]
  by_cases hn : s.n ≤ id
  · simp [hn]
  · simp only [hn, if_false]
    cases (s.blocks id).int with
    | some p => cases (s.blocks id).isAcquired <;> rfl
    | none =>
      simp only [er_getFree]
      cases getFree E s with
      | none => rfl
      | some r => rfl

theorem er_release (E : Env D) (s : St D) (id : Nat) (dirty : Bool) (pr : SB → Nat) :
    releaseWith E.er s.er id dirty pr = (releaseWith E s id dirty pr).map St.er := by
  have h1 : s.er.blocks = s.blocks := rfl
  have h2 : s.er.n = s.n := rfl
  unfold releaseWith
  rw [h1, h2]
  by_cases hn : s.n ≤ id
  · simp [hn]
  · simp only [hn, if_false]
    cases (s.blocks id).isAcquired with
    | false => rfl
    | true =>
      simp only [if_true]
      have key : ∀ (b1 : SB) (dd : Bool),
          (if b1.isAcquired then some (s.er.set id b1) else if dd then some { s.er.set id b1 with evict := insertEvict (s.er.set id b1).evict (pr b1) id } else (detach E.er (s.er.set id b1) id).map fun r => giveBack r.2 r.1) =
          Option.map St.er (if b1.isAcquired then some (s.set id b1) else if dd then some { s.set id b1 with evict := insertEvict (s.set id b1).evict (pr b1) id } else (detach E (s.set id b1) id).map fun r => giveBack r.2 r.1) := by
        intro b1 dd
        cases b1.isAcquired with
        | true => rfl
        | false =>
          cases dd with
          | true => rfl
          | false =>
            simp only [Bool.false_eq_true, if_false]
            rw [← er_set, er_detach]
            cases detach E (s.set id b1) id <;> rfl
      exact key _ _

theorem er_deinit (s : St D) (id : Nat) : deinit s.er id = (deinit s id).map St.er := by
  have h1 : s.er.blocks = s.blocks := rfl
  have h2 : s.er.n = s.n := rfl
  unfold deinit
  rw [h1, h2]
  by_cases hn : s.n ≤ id
  · simp [hn]
  · simp only [hn, if_false]
    cases (s.blocks id).isAcquired with
    | true => rfl
    | false =>
      simp only [Bool.false_eq_true, if_false]
      cases (s.blocks id).int <;> cases (s.blocks id).isEvictable <;> rfl

theorem er_init (s : St D) (id : Nat) (e : Option Nat) : initialize_ s.er id e = (initialize_ s id e).map St.er := by
  have h1 : s.er.blocks = s.blocks := rfl
  have h2 : s.er.n = s.n := rfl
  unfold initialize_
  rw [h1, h2]
  by_cases hn : s.n ≤ id
  · simp [hn]
  · simp only [hn, if_false]
    cases (s.blocks id).isInitialized <;> rfl

theorem er_putOut (E : Env D) (s : St D) (id : Nat) : putOut E.er s.er id = (putOut E s id).map St.er := by
  have h1 : s.er.blocks = s.blocks := rfl
  unfold putOut
  rw [h1]
  simp only
  have key : ∀ s1 : St D, (if (s.blocks id).isInternal then (detach E.er s1.er id).map fun r => giveBack r.2 r.1 else some s1.er) =
      Option.map St.er (if (s.blocks id).isInternal then (detach E s1 id).map fun r => giveBack r.2 r.1 else some s1) := by
    intro s1
    cases (s.blocks id).isInternal with
    | false => rfl
    | true =>
      simp only [if_true, er_detach]
      cases detach E s1 id <;> rfl
  cases (s.blocks id).isEvictable with
  | false => exact key s
  | true => exact key { s with evict := eraseEvict s.evict id }

theorem er_extract (E : Env D) (s : St D) (id : Nat) : extract E.er s.er id = (extract E s id).map fun r => (r.1, r.2.er) := by
  have h2 : s.er.n = s.n := rfl
  unfold extract
  rw [h2, er_putOut]
  by_cases hn : s.n ≤ id
  · simp [hn]
  · simp only [hn, if_false]
    cases putOut E s id <;> rfl

theorem er_flushAux (E : Env D) (k : Nat) (s : St D) : flushAux E.er k s.er = (flushAux E k s).map St.er := by
  induction k generalizing s with
  | zero => rfl
  | succ k ih =>
    simp only [flushAux]
    have h1 : s.er.mode = s.mode := rfl
    have h2 : s.er.evict = s.evict := rfl
    rw [h1, h2]
    cases popEvict s.mode s.evict with
    | none => rfl
    | some xr =>
      simp only
      have hd := er_detach E { s with evict := xr.2 } xr.1.2
      refine (congrArg (fun o => o.bind fun r => flushAux E.er k (giveBack r.2 r.1)) hd).trans ?_
      cases detach E { s with evict := xr.2 } xr.1.2 with
      | none => rfl
      | some r =>
        simp only [Option.map_some, Option.bind_some]
        exact ih (giveBack r.2 r.1)

theorem er_step {E : Env D} {s s' : St D} {op : Op D} {r : Res D} (h : step E s op = some (r, s')) :
    ∃ r', step E.er s.er op.er = some (r', s'.er) := by
  cases op with
  | acquire id u =>
    simp only [step, Option.map_eq_some_iff] at h
    obtain ⟨x, h1, h2⟩ := h
    cases h2
    exact ⟨.data (), by simp only [step, Op.er]; rw [er_acquire, h1]; rfl⟩
  | write id d =>
    simp only [step, Option.map_eq_some_iff] at h
    obtain ⟨x, h1, h2⟩ := h
    cases h2
    refine ⟨.unit, ?_⟩
    simp only [step, Op.er]
    unfold write at h1 ⊢
    have e1 : s.er.blocks = s.blocks := rfl
    have e2 : s.er.n = s.n := rfl
    rw [e1, e2]
    by_cases hn : s.n ≤ id
    · simp [hn] at h1
    · simp only [hn, if_false] at h1 ⊢
      cases ha : (s.blocks id).isAcquired with
      | false => rw [ha] at h1; simp at h1
      | true =>
        rw [ha] at h1
        simp only [if_true] at h1 ⊢
        cases hi : (s.blocks id).int with
        | none => rw [hi] at h1; simp at h1
        | some p => rw [hi] at h1; cases h1; rfl
  | release id dirty pr =>
    simp only [step, Option.map_eq_some_iff] at h
    obtain ⟨x, h1, h2⟩ := h
    cases h2
    exact ⟨.unit, by simp only [step, Op.er]; rw [er_release, h1]; rfl⟩
  | deinit id =>
    simp only [step, Option.map_eq_some_iff] at h
    obtain ⟨x, h1, h2⟩ := h
    cases h2
    exact ⟨.unit, by simp only [step, Op.er]; rw [er_deinit, h1]; rfl⟩
  | init id e =>
    simp only [step, Option.map_eq_some_iff] at h
    obtain ⟨x, h1, h2⟩ := h
    cases h2
    exact ⟨.unit, by simp only [step, Op.er]; rw [er_init, h1]; rfl⟩
  | extract id =>
    simp only [step, Option.map_eq_some_iff] at h
    obtain ⟨x, h1, h2⟩ := h
    cases h2
    exact ⟨.ext x.1, by simp only [step, Op.er]; rw [er_extract, h1]; rfl⟩
  | flush =>
    simp only [step, Option.map_eq_some_iff] at h
    obtain ⟨x, h1, h2⟩ := h
    cases h2
    refine ⟨.unit, ?_⟩
    simp only [step, Op.er, flush] at h1 ⊢
    rw [show s.er.evict.length = s.evict.length from rfl, er_flushAux, h1]; rfl
  | alloc =>
    cases h
    refine ⟨.id (alloc s).1, ?_⟩
    have e1 : s.er.freeIds = s.freeIds := rfl
    simp only [step, Op.er, alloc, e1]
    cases s.freeIds <;> rfl
  | free id =>
    simp only [step, freeBlock, Option.map_map, Option.map_eq_some_iff] at h
    obtain ⟨x, h1, h2⟩ := h
    cases h2
    exact ⟨.unit, by simp only [step, Op.er, freeBlock]; rw [er_deinit, h1]; rfl⟩
  | client d =>
    cases h
    exact ⟨_, rfl⟩
  | retag m l =>
    simp only [step] at h
    split at h
    · rename_i hp
      cases h
      exact ⟨.unit, by simp only [step, Op.er]; rw [show s.er.evict = s.evict from rfl, if_pos hp]; rfl⟩
    · cases h

/-- Without data every state that is accounted for is one of a client that keeps the rules. -/
def absOf (s : St Unit) : Abs Unit :=
  { data := fun i => if (s.blocks i).dirty then some () else (s.blocks i).ext.map fun _ => ()
    refs := fun i => (s.blocks i).refs
    work := fun _ => some ()
    changed := fun _ => false
    held := fun e => if e ∈ s.held then some () else none }

theorem absOf_inv {s : St Unit} (h : Core s none) (he : Ev s) : Inv () s (absOf s) := by
  refine ⟨h, he, fun i => ⟨rfl, ?_, ?_, ?_⟩, fun e => ⟨?_, fun _ _ => rfl⟩⟩
  · intro p hr hp
    show (if (s.blocks i).dirty then some () else (s.blocks i).ext.map fun _ => ()) = _
    rcases he.valid i (by rw [hp]; simp) hr with hd | hd
    · rw [hd]; rfl
    · obtain ⟨e, hx⟩ := Option.ne_none_iff_exists'.1 hd
      rw [hx]; cases (s.blocks i).dirty <;> rfl
  · intro _ hd
    show (if (s.blocks i).dirty then some () else (s.blocks i).ext.map fun _ => ()) = _
    rw [hd]; rfl
  · intro p _ _
    exact ⟨rfl, fun _ => ⟨rfl, rfl⟩⟩
  · show (if e ∈ s.held then some () else none) ≠ none ↔ _
    by_cases hm : e ∈ s.held <;> simp [hm]

theorem absOf_allowed {E : Env Unit} {s s' : St Unit} {op : Op Unit} {r} (h : Core s none) (ha : ∀ id e, op = .init id (some e) → e ∈ s.held)
    (hs : step E s op = some (r, s')) : Allowed (absOf s) op := by
  have hr : ∀ id, (absOf s).refs id = (s.blocks id).refs := fun _ => rfl
  have dein : ∀ id t, deinit s id = some t → (s.blocks id).refs = 0 := by
    intro id t ht
    unfold deinit at ht
    by_cases hn : s.n ≤ id
    · simp [hn] at ht
    · simp only [hn, if_false] at ht
      by_cases hc : 0 < (s.blocks id).refs
      · simp [SB.isAcquired, hc] at ht
      · omega
  cases op with
  | acquire id u => trivial
  | write id d =>
    show 0 < (s.blocks id).refs
    simp only [step, write, Option.map_eq_some_iff] at hs
    obtain ⟨x, h1, _⟩ := hs
    by_cases hn : s.n ≤ id
    · simp [hn] at h1
    · by_cases hc : 0 < (s.blocks id).refs
      · exact hc
      · simp [hn, SB.isAcquired, hc] at h1
  | release id dirty pr =>
    refine ⟨?_, fun _ hc => by cases hc⟩
    show 0 < (s.blocks id).refs
    simp only [step, releaseWith, Option.map_eq_some_iff] at hs
    obtain ⟨x, h1, _⟩ := hs
    by_cases hn : s.n ≤ id
    · simp [hn] at h1
    · by_cases hc : 0 < (s.blocks id).refs
      · exact hc
      · simp [hn, SB.isAcquired, hc] at h1
  | deinit id =>
    simp only [step, Option.map_eq_some_iff] at hs
    obtain ⟨x, h1, _⟩ := hs
    exact dein id x h1
  | free id =>
    simp only [step, freeBlock, Option.map_map, Option.map_eq_some_iff] at hs
    obtain ⟨x, h1, _⟩ := hs
    exact dein id x h1
  | init id e =>
    simp only [step, initialize_, Option.map_eq_some_iff] at hs
    obtain ⟨x, h1, _⟩ := hs
    by_cases hn : s.n ≤ id
    · simp [hn] at h1
    · simp only [hn, if_false] at h1
      cases hI : (s.blocks id).isInitialized with
      | true => simp [hI] at h1
      | false =>
        simp only [SB.isInitialized, SB.isInternal, Bool.or_eq_false_iff, Option.isSome_eq_false_iff, Option.isNone_iff_eq_none] at hI
        obtain ⟨i1, i2⟩ := hI
        have hd : (s.blocks id).dirty = false := by
          cases hp : (s.blocks id).dirty with
          | false => rfl
          | true => exact absurd i1 (h.dirtyInt id hp)
        have hx : (s.blocks id).ext = none := by
          simp only [SB.isExternal, hd, Bool.not_false, Bool.and_true, Option.isSome_eq_false_iff, Option.isNone_iff_eq_none] at i2
          exact i2
        refine ⟨?_, ?_, ?_⟩
        · show (s.blocks id).refs = 0
          rcases Nat.eq_zero_or_pos (s.blocks id).refs with hc | hc
          · exact hc
          · exact absurd i1 (h.refsInt id hc)
        · show (if (s.blocks id).dirty then some () else (s.blocks id).ext.map fun _ => ()) = none
          rw [hd, hx]; rfl
        · intro x hx'
          show (if x ∈ s.held then some () else none) ≠ none
          rw [if_pos (ha id x (by rw [hx']))]; simp
  | extract id =>
    show (s.blocks id).refs = 0
    rcases Nat.eq_zero_or_pos (s.blocks id).refs with hc | hc
    · exact hc
    · exfalso
      have hi := h.refsInt id hc
      simp only [step, extract, Option.map_eq_some_iff] at hs
      obtain ⟨x, h1, _⟩ := hs
      by_cases hn : s.n ≤ id
      · simp [hn] at h1
      · have hi' : (s.blocks id).int.isSome = true := by
          cases hq : (s.blocks id).int with
          | none => exact absurd hq hi
          | some _ => rfl
        simp [hn, putOut, detach, SB.isEvictable, SB.isInternal, SB.isAcquired, hc, hi'] at h1
  | flush => trivial
  | alloc => trivial
  | client d => trivial
  | retag m l => trivial

theorem Core.of_er {s : St D} {hand} (h : Core s.er hand) : Core s hand :=
  ⟨h.total, h.freeNd, h.freeLt, h.att, h.inj, h.handOk, h.cover, h.dirtyInt, h.refsInt, h.extOwn, h.extLive⟩

theorem Core.er {s : St D} {hand} (h : Core s hand) : Core s.er hand :=
  ⟨h.total, h.freeNd, h.freeLt, h.att, h.inj, h.handOk, h.cover, h.dirtyInt, h.refsInt, h.extOwn, h.extLive⟩

/-- Every call keeps the blocks accounted for. -/
theorem step_core {E : Env D} (hE : ∀ l, E.pick l ∉ l) {s s' : St D} {op : Op D} {r} (h : Core s none) (he : Ev s)
    (ha : ∀ id e, op = .init id (some e) → e ∈ s.held) (hs : step E s op = some (r, s')) : Core s' none ∧ Ev s' := by
  obtain ⟨r', h1⟩ := er_step hs
  have ha' : ∀ id e, op.er = .init id (some e) → e ∈ s.er.held := by
    intro id e he'
    cases op <;> simp only [Op.er, reduceCtorEq, Op.init.injEq] at he'
    obtain ⟨rfl, rfl⟩ := he'
    exact ha _ _ rfl
  have hev : Ev s.er := ⟨he.nd, he.mem, he.valid⟩
  have := (step_inv E.er hE (dflt := ()) (fun _ => rfl) (absOf_inv h.er hev) op.er (absOf_allowed h.er ha' h1) h1).2
  exact ⟨this.core.of_er, ⟨this.ev.nd, this.ev.mem, this.ev.valid⟩⟩

theorem detach_max {E : Env D} {s s' : St D} {id p : Nat} (h : detach E s id = some (p, s')) : s'.max = s.max ∧ s'.n = s.n := by
  unfold detach at h
  split at h
  · simp only [Option.bind_eq_some_iff] at h
    obtain ⟨s1, h1, h2⟩ := h
    have : s1.max = s.max ∧ s1.n = s.n := by
      unfold clean at h1
      simp only at h1
      split at h1
      · split at h1
        · cases h1
        · cases h1; exact ⟨rfl, rfl⟩
      · cases h1; exact ⟨rfl, rfl⟩
    split at h2
    · cases h2
    · cases h2; exact this
  · cases h

theorem getFreeBs_max (s : St D) : (getFreeBs s).2.max = s.max := by
  unfold getFreeBs
  split
  · rfl
  · split <;> rfl

theorem flushAux_max (E : Env D) (k : Nat) {s s' : St D} (h : flushAux E k s = some s') : s'.max = s.max := by
  induction k generalizing s with
  | zero => cases h; rfl
  | succ k ih =>
    simp only [flushAux] at h
    split at h
    · cases h; rfl
    · simp only [Option.bind_eq_some_iff] at h
      obtain ⟨x, h1, h2⟩ := h
      rw [ih h2]; exact (detach_max h1).1

theorem deinit_max {s s' : St D} {id : Nat} (h : deinit s id = some s') : s'.max = s.max := by
  unfold deinit at h
  split at h
  · cases h
  · simp only at h
    split at h
    · cases h
    · split at h <;> cases h <;> (try simp only [giveBack, set_max]) <;> split <;> rfl

theorem step_max {E : Env D} {s s' : St D} {op : Op D} {r} (h : step E s op = some (r, s')) : s'.max = s.max := by
  cases op with
  | acquire id u =>
    simp only [step, Option.map_eq_some_iff] at h
    obtain ⟨x, h1, h2⟩ := h
    cases h2
    unfold acquire at h1
    split at h1
    · cases h1
    · simp only at h1
      split at h1
      · cases h1
        simp only [set_max]
        split <;> rfl
      · simp only [Option.map_eq_some_iff] at h1
        obtain ⟨y, h3, h4⟩ := h1
        cases h4
        show y.2.max = s.max
        unfold getFree at h3
        have hm := getFreeBs_max s
        cases hg : getFreeBs s with
        | mk o s1 =>
          rw [hg] at h3 hm
          cases o with
          | some p => simp only at h3; cases h3; exact hm
          | none =>
            simp only at h3
            split at h3
            · cases h3
            · rw [(detach_max h3).1]; exact hm
  | write id d =>
    simp only [step, Option.map_eq_some_iff] at h
    obtain ⟨x, h1, h2⟩ := h
    cases h2
    unfold write at h1
    split at h1
    · cases h1
    · split at h1
      · simp only [Option.map_eq_some_iff] at h1
        obtain ⟨y, _, h4⟩ := h1
        cases h4; rfl
      · cases h1
  | release id dirty pr =>
    simp only [step, Option.map_eq_some_iff] at h
    obtain ⟨x, h1, h2⟩ := h
    cases h2
    unfold releaseWith at h1
    split at h1
    · cases h1
    · simp only at h1
      split at h1
      · split at h1
        · cases h1; rfl
        · split at h1
          · cases h1; rfl
          · simp only [Option.map_eq_some_iff] at h1
            obtain ⟨y, h3, h4⟩ := h1
            cases h4
            exact (detach_max h3).1
      · cases h1
  | deinit id =>
    simp only [step, Option.map_eq_some_iff] at h
    obtain ⟨x, h1, h2⟩ := h
    cases h2
    exact deinit_max h1
  | free id =>
    simp only [step, freeBlock, Option.map_map, Option.map_eq_some_iff] at h
    obtain ⟨x, h1, h2⟩ := h
    cases h2
    have := deinit_max h1
    exact this
  | init id e =>
    simp only [step, Option.map_eq_some_iff] at h
    obtain ⟨x, h1, h2⟩ := h
    cases h2
    unfold initialize_ at h1
    split at h1
    · cases h1
    · simp only at h1
      split at h1
      · cases h1
      · cases h1; rfl
  | extract id =>
    simp only [step, extract, Option.map_eq_some_iff] at h
    obtain ⟨x, h1, h2⟩ := h
    cases h2
    split at h1
    · cases h1
    · simp only [Option.map_eq_some_iff] at h1
      obtain ⟨y, h3, h4⟩ := h1
      cases h4
      show y.max = s.max
      unfold putOut at h3
      simp only at h3
      split at h3
      · simp only [Option.map_eq_some_iff] at h3
        obtain ⟨z, h5, h6⟩ := h3
        cases h6
        show z.2.max = s.max
        rw [(detach_max h5).1]
        split <;> rfl
      · cases h3
        split <;> rfl
  | flush =>
    simp only [step, Option.map_eq_some_iff] at h
    obtain ⟨x, h1, h2⟩ := h
    cases h2
    exact flushAux_max E _ h1
  | alloc =>
    cases h
    unfold alloc
    split <;> rfl
  | client d => cases h; rfl
  | retag m l =>
    simp only [step] at h
    split at h
    · cases h; rfl
    · cases h

theorem hist_inv {E : Env D} (hE : ∀ l, E.pick l ∉ l) {max : Nat} {s : St D} (h : Hist E max s) : Core s none ∧ Ev s ∧ s.max = max := by
  induction h with
  | start memory size mem disk hm => exact ⟨(init_inv (mem 0) memory size mem disk).core, (init_inv (mem 0) memory size mem disk).ev, hm.symm⟩
  | step op _ ha hs ih =>
    obtain ⟨h1, h2, h3⟩ := ih
    obtain ⟨g1, g2⟩ := step_core hE h1 h2 ha hs
    exact ⟨g1, g2, by rw [step_max hs, h3]⟩

/-! ### Counting -/

theorem filter_lengths {α : Type} (P Q : α → Bool) (l : List α) (h : ∀ x ∈ l, P x = true → Q x = true) :
    (l.filter P).length ≤ (l.filter Q).length ∧ ((l.filter Q).length ≤ (l.filter P).length → ∀ x ∈ l, Q x = true → P x = true) := by
  induction l with
  | nil => simp
  | cons a l ih =>
    obtain ⟨i1, i2⟩ := ih fun x hx => h x (List.mem_cons_of_mem _ hx)
    have ha := h a List.mem_cons_self
    cases hp : P a <;> cases hq : Q a
    · simp only [List.filter_cons, hp, hq, Bool.false_eq_true, if_false]
      refine ⟨i1, fun hl x hx hqx => ?_⟩
      rcases List.mem_cons.1 hx with rfl | hx
      · rw [hq] at hqx; cases hqx
      · exact i2 hl x hx hqx
    · simp only [List.filter_cons, hp, hq, Bool.false_eq_true, if_false, if_true, List.length_cons]
      exact ⟨by omega, fun hl => by omega⟩
    · rw [hp, hq] at ha; exact absurd (ha rfl) (by simp)
    · simp only [List.filter_cons, hp, hq, if_true, List.length_cons]
      refine ⟨by omega, fun hl x hx hqx => ?_⟩
      rcases List.mem_cons.1 hx with rfl | hx
      · exact hp
      · exact i2 (by omega) x hx hqx

theorem attached_perm {s : St D} (h : Core s none) : (s.free ++ (List.range s.n).filterMap fun id => (s.blocks id).int).Perm (List.range s.next) := by
  refine (List.perm_ext_iff_of_nodup ?_ List.nodup_range).2 fun p => ?_
  · refine List.nodup_append.2 ⟨h.freeNd, ?_, ?_⟩
    · refine List.Pairwise.filterMap _ (R := fun a b => a ≠ b) ?_ List.nodup_range
      intro a a' haa b hb b' hb' hbb
      subst hbb
      exact haa (h.inj a a' b hb hb')
    · intro a ha b hb
      obtain ⟨i, _, hi⟩ := List.mem_filterMap.1 hb
      rintro rfl
      exact (h.att i a hi).2.2.1 ha
  · rw [List.mem_append, List.mem_filterMap, List.mem_range]
    constructor
    · rintro (h1 | ⟨i, _, h1⟩)
      · exact h.freeLt p h1
      · exact (h.att i p h1).2.1
    · intro hp
      rcases h.cover p hp with h1 | h1 | ⟨i, h1⟩
      · exact .inl h1
      · cases h1
      · exact .inr ⟨i, List.mem_range.2 (h.att i p h1).1, h1⟩

theorem filterMap_length' {α β : Type} (f : α → Option β) (l : List α) : (l.filterMap f).length = (l.filter fun x => (f x).isSome).length := by
  induction l with
  | nil => rfl
  | cons a l ih =>
    cases hf : f a with
    | none => simp [List.filterMap_cons, List.filter_cons, hf, ih]
    | some b => simp [List.filterMap_cons, List.filter_cons, hf, ih]

theorem account {s : St D} (h : Core s none) : s.free.length + attachedCount s + s.remaining = s.max := by
  have := (attached_perm h).length_eq
  rw [List.length_append, filterMap_length', List.length_range] at this
  have h2 := h.total
  have h3 : attachedCount s = ((List.range s.n).filter fun x => ((s.blocks x).int).isSome).length := rfl
  omega

theorem acquire_iff {E : Env D} (hE : ∀ l, E.pick l ∉ l) {s : St D} (h : Core s none) (he : Ev s) (id : Nat) (u : Bool) (hid : id < s.n) :
    (acquire E s id u).isSome = true ↔ (s.blocks id).isInternal = true ∨ acquiredCount s < s.max := by
  have hacc := account h
  obtain ⟨c1, c2⟩ := filter_lengths (fun i => (s.blocks i).isAcquired) (fun i => (s.blocks i).isInternal) (List.range s.n) (by
    intro i _ hi
    simp only [SB.isAcquired, decide_eq_true_eq] at hi
    cases hp : (s.blocks i).int with
    | none => exact absurd hp (h.refsInt i hi)
    | some p => simp [SB.isInternal, hp])
  have e1 : acquiredCount s = ((List.range s.n).filter fun i => (s.blocks i).isAcquired).length := rfl
  have e2 : attachedCount s = ((List.range s.n).filter fun i => (s.blocks i).isInternal).length := rfl
  rw [← e1, ← e2] at c1 c2
  cases hp : (s.blocks id).int with
  | some p => simp [acquire, Nat.not_le.2 hid, hp, SB.isInternal]
  | none =>
    have hni : (s.blocks id).isInternal = false := by simp [SB.isInternal, hp]
    simp only [hni, Bool.false_eq_true, false_or]
    rcases getFree_spec E hE h he with ⟨g, g1, g2, g3⟩ | ⟨p, s1, g, c, _, v, _⟩
    · constructor
      · intro hs; simp [acquire, Nat.not_le.2 hid, hp, g] at hs
      · intro hlt
        exfalso
        rw [g1, g2] at hacc
        simp only [List.length_nil] at hacc
        have : attachedCount s ≤ acquiredCount s := by
          refine (filter_lengths (fun i => (s.blocks i).isInternal) (fun i => (s.blocks i).isAcquired) (List.range s.n) ?_).1
          intro i _ hi
          simp only [SB.isAcquired, decide_eq_true_eq]
          rcases Nat.eq_zero_or_pos (s.blocks i).refs with hc | hc
          · have := (he.mem i).2 ⟨by intro hx; simp [SB.isInternal, hx] at hi, hc⟩
            rw [g3] at this; cases this
          · exact hc
        omega
    · constructor
      · intro _
        rcases Nat.lt_or_ge (acquiredCount s) s.max with hlt | hge
        · exact hlt
        · exfalso
          have hall := c2 (by omega)
          have hf0 : s.free = [] := List.eq_nil_of_length_eq_zero (by omega)
          have hr0 : s.remaining = 0 := by omega
          have hev0 : s.evict = [] := by
            cases hev : s.evict with
            | nil => rfl
            | cons x l =>
              exfalso
              have hm := (he.mem x.2).1 (by rw [hev]; simp)
              obtain ⟨q, hq⟩ := Option.ne_none_iff_exists'.1 hm.1
              have := hall x.2 (List.mem_range.2 (h.att x.2 q hq).1) (by simp [SB.isInternal, hq])
              simp only [SB.isAcquired, decide_eq_true_eq] at this
              omega
          have : getFree E s = none := by
            have : getFreeBs s = (none, s) := by simp [getFreeBs, hf0, hr0]
            simp [getFree, this, hev0, popEvict]
          rw [this] at g; cases g
      · intro _; simp [acquire, Nat.not_le.2 hid, hp, g]

end Foxxll.Swap
