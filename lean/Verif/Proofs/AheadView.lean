import Verif.Proofs.BlockScheduler

set_option linter.unusedSimpArgs false
set_option linter.unusedVariables false
set_option linter.unusedSectionVars false

/-
Changes of the state of a block scheduler that the client does not notice: other names of internal blocks,
blocks written, evicted or read in advance.
-/
namespace Foxxll.Swap

variable {D : Type}

/-- Same blocks; only the contents of attached internal blocks matter. -/
theorem Inv.same {dflt : D} {a : Abs D} {v v' : St D} (h : Inv dflt v a) (hb : v'.blocks = v.blocks) (hn : v'.n = v.n) (hh : v'.held = v.held)
    (hx : v'.next = v.next) (hr : v'.remaining = v.remaining) (hm : v'.max = v.max) (hf : ∀ p, p ∈ v'.free ↔ p ∈ v.free) (hfn : v'.free.Nodup)
    (he : ∀ i, i ∈ v'.evict.map (·.2) ↔ i ∈ v.evict.map (·.2)) (hen : (v'.evict.map (·.2)).Nodup)
    (hmem : ∀ i p, (v.blocks i).int = some p → v'.mem p = v.mem p) (hd : ∀ e, v'.disk e = v.disk e) : Inv dflt v' a := by
  have hdf : v'.disk = v.disk := funext hd
  refine ⟨?_, ⟨hen, fun i => by rw [he, hb]; exact h.ev.mem i, by rw [hb]; exact h.ev.valid⟩, fun i => ?_, fun e => ?_⟩
  · constructor
    · rw [hm, hr, hx]; exact h.core.total
    · exact hfn
    · intro p hp; rw [hx]; exact h.core.freeLt p ((hf p).1 hp)
    · intro i p; rw [hb, hn, hx, hf]; exact h.core.att i p
    · rw [hb]; exact h.core.inj
    · intro p hp; cases hp
    · intro p; rw [hx, hf, hb]; exact h.core.cover p
    · rw [hb]; exact h.core.dirtyInt
    · rw [hb]; exact h.core.refsInt
    · rw [hb]; exact h.core.extOwn
    · rw [hb, hn, hh]; exact h.core.extLive
  · exact ok_frame (h.ok i) (by rw [hb]) (fun p hp => hmem i p hp) (fun e _ => hd e) rfl rfl rfl rfl
  · rw [hdf, hh]; exact h.held e

/-- Exchange of two internal blocks. -/
def swapNames (p q x : Nat) : Nat := if x = p then q else if x = q then p else x

theorem swapNames_invol (p q x : Nat) : swapNames p q (swapNames p q x) = x := by
  unfold swapNames
  by_cases h1 : x = p <;> by_cases h2 : x = q
  · subst h1; subst h2; simp
  · subst h1; simp only [if_true]; by_cases h3 : q = x
    · exact absurd h3.symm h2
    · simp [h3]
  · subst h2; simp [h1]
  · simp [h1, h2]

theorem swapNames_inj {p q x y : Nat} (h : swapNames p q x = swapNames p q y) : x = y := by
  rw [← swapNames_invol p q x, h, swapNames_invol]

theorem Inv.rename {dflt : D} {a : Abs D} {v v' : St D} (h : Inv dflt v a) {p q : Nat} (hp : p < v.next) (hq : q < v.next)
    (hb : ∀ i, v'.blocks i = { v.blocks i with int := (v.blocks i).int.map (swapNames p q) }) (hn : v'.n = v.n) (hh : v'.held = v.held)
    (hx : v'.next = v.next) (hr : v'.remaining = v.remaining) (hm : v'.max = v.max) (hf : ∀ x, x ∈ v'.free ↔ swapNames p q x ∈ v.free) (hfn : v'.free.Nodup)
    (he : v'.evict = v.evict)
    (hmem : ∀ i x, (v.blocks i).int = some x → v'.mem (swapNames p q x) = v.mem x) (hd : v'.disk = v.disk) : Inv dflt v' a := by
  have hint : ∀ i x, (v'.blocks i).int = some x → (v.blocks i).int = some (swapNames p q x) := by
    intro i x hi
    rw [hb] at hi
    cases hc : (v.blocks i).int with
    | none => rw [hc] at hi; cases hi
    | some y => rw [hc] at hi; simp only [Option.map_some, Option.some.injEq] at hi; rw [← hi, swapNames_invol]
  have hint' : ∀ i x, (v.blocks i).int = some x → (v'.blocks i).int = some (swapNames p q x) := by
    intro i x hi; rw [hb, hi]; rfl
  have hnone : ∀ i, (v'.blocks i).int = none ↔ (v.blocks i).int = none := by
    intro i; rw [hb]; simp
  have hext : ∀ i, (v'.blocks i).ext = (v.blocks i).ext := fun i => by rw [hb]
  have hdir : ∀ i, (v'.blocks i).dirty = (v.blocks i).dirty := fun i => by rw [hb]
  have href : ∀ i, (v'.blocks i).refs = (v.blocks i).refs := fun i => by rw [hb]
  have hlt : ∀ x, x < v.next → swapNames p q x < v.next := by
    intro x hx; unfold swapNames; split
    · exact hq
    · split
      · exact hp
      · exact hx
  refine ⟨?_, ⟨by rw [he]; exact h.ev.nd, fun i => by rw [he, href, ne_eq, hnone]; exact h.ev.mem i, fun i => by rw [hdir, hext, href, ne_eq, hnone]; exact h.ev.valid i⟩, fun i => ?_, fun e => ?_⟩
  · constructor
    · rw [hm, hr, hx]; exact h.core.total
    · exact hfn
    · intro x hx'; rw [hx]
      have := h.core.freeLt _ ((hf x).1 hx')
      rw [← swapNames_invol p q x]; exact hlt _ this
    · intro i x hi
      have := h.core.att i _ (hint i x hi)
      rw [hn, hx, hf]
      refine ⟨this.1, ?_, this.2.2.1, by simp⟩
      rw [← swapNames_invol p q x]; exact hlt _ this.2.1
    · intro i j x h1 h2; exact h.core.inj i j _ (hint i x h1) (hint j x h2)
    · intro x hx; cases hx
    · intro x hx'; rw [hx] at hx'
      rcases h.core.cover _ (hlt x hx') with hc | hc | ⟨i, hc⟩
      · exact .inl ((hf x).2 hc)
      · cases hc
      · refine .inr (.inr ⟨i, ?_⟩)
        have := hint' i _ hc
        rw [swapNames_invol] at this; exact this
    · intro i; rw [hdir, ne_eq, hnone]; exact h.core.dirtyInt i
    · intro i; rw [href, ne_eq, hnone]; exact h.core.refsInt i
    · intro i j e; rw [hext, hext]; exact h.core.extOwn i j e
    · intro i e; rw [hext, hn, hh]; exact h.core.extLive i e
  · have hm' : ∀ x, (v'.blocks i).int = some x → v'.mem x = v.mem (swapNames p q x) := by
      intro x hi
      have := hmem i _ (hint i x hi)
      rw [swapNames_invol] at this; exact this
    have hi := h.ok i
    constructor
    · rw [href]; exact hi.refs
    · intro x h1 h2; rw [href] at h1; rw [hm' x h2]; exact hi.idleIn _ h1 (hint i x h2)
    · rw [href, hdir, hext, hd]; exact hi.idleOut
    · intro x h1 h2; rw [href] at h1; rw [hm' x h2, hdir, hext, hd]; exact hi.used _ h1 (hint i x h2)
  · rw [hd, hh]; exact h.held e

/-- A block is read into a free internal block in advance. -/
theorem Inv.load {dflt : D} {a : Abs D} {v v' : St D} (h : Inv dflt v a) {c q e : Nat} (hc : (v.blocks c).int = none) (hext : (v.blocks c).ext = some e)
    (hq : q ∈ v.free)
    (hb : v'.blocks = (v.set c { v.blocks c with int := some q }).blocks) (hn : v'.n = v.n) (hh : v'.held = v.held)
    (hx : v'.next = v.next) (hr : v'.remaining = v.remaining) (hm : v'.max = v.max) (hf : ∀ p, p ∈ v'.free ↔ p ∈ v.free ∧ p ≠ q) (hfn : v'.free.Nodup)
    (he : ∀ i, i ∈ v'.evict.map (·.2) ↔ i ∈ v.evict.map (·.2) ∨ i = c) (hen : (v'.evict.map (·.2)).Nodup)
    (hmem : ∀ i p, (v.blocks i).int = some p → v'.mem p = v.mem p) (hmq : v'.mem q = v.disk e) (hd : v'.disk = v.disk) : Inv dflt v' a := by
  have hr0 : (v.blocks c).refs = 0 := by
    cases hz : (v.blocks c).refs with
    | zero => rfl
    | succ z => exact absurd hc (h.core.refsInt c (by omega))
  have hd0 : (v.blocks c).dirty = false := by
    cases hz : (v.blocks c).dirty with
    | false => rfl
    | true => exact absurd hc (h.core.dirtyInt c hz)
  have core1 : Core { v with free := v'.free } (some q) := by
    constructor
    · exact h.core.total
    · exact hfn
    · intro p hp; exact h.core.freeLt p ((hf p).1 hp).1
    · intro i p hi
      have := h.core.att i p hi
      refine ⟨this.1, this.2.1, fun hc => this.2.2.1 ((hf p).1 hc).1, fun hc => ?_⟩
      cases hc; exact this.2.2.1 hq
    · exact h.core.inj
    · intro p hp; cases hp
      exact ⟨h.core.freeLt q hq, fun hc => ((hf q).1 hc).2 rfl⟩
    · intro p hp
      rcases h.core.cover p hp with h1 | h1 | h1
      · by_cases e : p = q
        · subst e; exact .inr (.inl rfl)
        · exact .inl ((hf p).2 ⟨h1, e⟩)
      · cases h1
      · exact .inr (.inr h1)
    · exact h.core.dirtyInt
    · exact h.core.refsInt
    · exact h.core.extOwn
    · exact h.core.extLive
  have core2 := core_attach core1 c (h.core.extLive c e hext).1 { v.blocks c with int := some q } hc rfl rfl
  refine ⟨core2.congr hm hr hx rfl hn ?_ hh, ⟨hen, fun i => ?_, fun i => ?_⟩, fun i => ?_, fun x => ?_⟩
  · rw [hb]; rfl
  · rw [he, hb]
    by_cases e : i = c
    · subst e; rw [set_same]; simp [hr0]
    · rw [set_other _ _ e, ← h.ev.mem i]; simp [e]
  · rw [hb]
    by_cases e : i = c
    · subst e; rw [set_same]; simp [hext]
    · rw [set_other _ _ e]; exact h.ev.valid i
  · by_cases e' : i = c
    · subst e'
      have hi := h.ok i
      have hdat := hi.idleOut hr0 hd0
      constructor
      · rw [hb, set_same]; exact hi.refs
      · intro p _ hp; rw [hb, set_same] at hp; cases hp; rw [hdat, hext, hmq]; rfl
      · intro _ _; rw [hb, set_same, hd]; exact hdat
      · intro p h1; rw [hb, set_same] at h1; simp only [hr0] at h1; omega
    · exact ok_frame (h.ok i) (by rw [hb, set_other _ _ e']) (fun p hp => hmem i p hp) (fun e _ => by rw [hd]) rfl rfl rfl rfl
  · rw [hd, hh]; exact h.held x

/-- A dirty block is written. -/
theorem Inv.clean {dflt : D} {a : Abs D} {v : St D} (h : Inv dflt v a) {c p e : Nat} (hc : (v.blocks c).int = some p) (hr : (v.blocks c).refs = 0)
    (he : (v.blocks c).ext = some e ∨ e ∉ v.live) :
    Inv dflt { v.set c { v.blocks c with ext := some e, dirty := false } with disk := fun x => if x = e then v.mem p else v.disk x } a := by
  have hcn := (h.core.att c p hc).1
  have hne : ∀ j, j ≠ c → (v.blocks j).ext ≠ some e := by
    intro j hj hje
    rcases he with he | he
    · exact hj (h.core.extOwn j c e hje he)
    · exact he (mem_live h.core hje)
  have hnh : e ∉ v.held := by
    rcases he with he | he
    · exact (h.core.extLive c e he).2
    · exact fun hm => he (List.mem_append.2 (.inr hm))
  have hint : ∀ j, ((v.set c { v.blocks c with ext := some e, dirty := false }).blocks j).int = (v.blocks j).int := by
    intro j; by_cases x : j = c
    · subst x; rw [set_same]
    · rw [set_other _ _ x]
  refine ⟨?_, ⟨h.ev.nd, fun i => ?_, fun i => ?_⟩, fun i => ?_, fun x => ?_⟩
  · constructor
    · exact h.core.total
    · exact h.core.freeNd
    · exact h.core.freeLt
    · intro i q hi; exact h.core.att i q ((hint i).symm.trans hi)
    · intro i j q h1 h2; exact h.core.inj i j q ((hint i).symm.trans h1) ((hint j).symm.trans h2)
    · intro q hq; cases hq
    · intro q hq
      rcases h.core.cover q hq with h1 | h1 | ⟨i, h1⟩
      · exact .inl h1
      · cases h1
      · exact .inr (.inr ⟨i, (hint i).trans h1⟩)
    · intro i hi
      show ((v.set c _).blocks i).int ≠ none
      have hi : ((v.set c _).blocks i).dirty = true := hi
      by_cases x : i = c
      · subst x; rw [set_same] at hi; cases hi
      · rw [set_other _ _ x] at hi ⊢; exact h.core.dirtyInt i hi
    · intro i hi
      show ((v.set c _).blocks i).int ≠ none
      have hi : 0 < ((v.set c _).blocks i).refs := hi
      by_cases x : i = c
      · subst x; rw [set_same]; simp [hc]
      · rw [set_other _ _ x] at hi ⊢; exact h.core.refsInt i hi
    · intro i j x h1 h2
      have h1 : ((v.set c _).blocks i).ext = some x := h1
      have h2 : ((v.set c _).blocks j).ext = some x := h2
      by_cases ei : i = c <;> by_cases ej : j = c
      · rw [ei, ej]
      · subst ei; rw [set_same] at h1; cases h1; rw [set_other _ _ ej] at h2; exact absurd h2 (hne j ej)
      · subst ej; rw [set_same] at h2; cases h2; rw [set_other _ _ ei] at h1; exact absurd h1 (hne i ei)
      · rw [set_other _ _ ei] at h1; rw [set_other _ _ ej] at h2; exact h.core.extOwn i j x h1 h2
    · intro i x h1
      have h1 : ((v.set c _).blocks i).ext = some x := h1
      by_cases ei : i = c
      · subst ei; rw [set_same] at h1; cases h1; exact ⟨hcn, hnh⟩
      · rw [set_other _ _ ei] at h1; exact h.core.extLive i x h1
  · show _ ↔ ((v.set c _).blocks i).int ≠ none ∧ ((v.set c _).blocks i).refs = 0
    rw [hint]
    by_cases x : i = c
    · subst x; rw [set_same]; exact h.ev.mem i
    · rw [set_other _ _ x]; exact h.ev.mem i
  · show ((v.set c _).blocks i).int ≠ none → ((v.set c _).blocks i).refs = 0 → _ ∨ ((v.set c _).blocks i).ext ≠ none
    by_cases x : i = c
    · subst x; rw [set_same]; simp
    · rw [set_other _ _ x]
      exact h.ev.valid i
  · by_cases x : i = c
    · subst x
      have hi := h.ok i
      have hdat := hi.idleIn p hr hc
      constructor
      · show _ = ((v.set i _).blocks i).refs; rw [set_same]; exact hi.refs
      · intro q _ hq; have hq : ((v.set i _).blocks i).int = some q := hq; rw [hint, hc] at hq; cases hq; exact hdat
      · intro _ _; show _ = ((v.set i _).blocks i).ext.map _; rw [set_same, hdat]; simp
      · intro q h1; have h1 : 0 < ((v.set i _).blocks i).refs := h1; rw [set_same] at h1; simp only [hr] at h1; omega
    · refine ok_frame (h.ok i) (set_other _ _ x) (fun _ _ => rfl) (fun e' he' => ?_) rfl rfl rfl rfl
      show (if e' = e then _ else _) = _
      rw [if_neg]; rintro rfl; exact hne i x he'
  · obtain ⟨h1, h2⟩ := h.held x
    refine ⟨h1, fun d hd => ?_⟩
    show (if x = e then _ else _) = _
    rw [if_neg, h2 d hd]
    rintro rfl
    exact hnh (h1.1 (by rw [hd]; simp))

/-- A clean block is evicted. -/
theorem Inv.unload {dflt : D} {a : Abs D} {v v' : St D} (h : Inv dflt v a) {c p : Nat} (hc : (v.blocks c).int = some p) (hr0 : (v.blocks c).refs = 0)
    (hd0 : (v.blocks c).dirty = false)
    (hb : v'.blocks = (v.set c { v.blocks c with int := none }).blocks) (hn : v'.n = v.n) (hh : v'.held = v.held)
    (hx : v'.next = v.next) (hr : v'.remaining = v.remaining) (hm : v'.max = v.max) (hf : ∀ x, x ∈ v'.free ↔ x ∈ v.free ∨ x = p) (hfn : v'.free.Nodup)
    (he : ∀ i, i ∈ v'.evict.map (·.2) ↔ i ∈ v.evict.map (·.2) ∧ i ≠ c) (hen : (v'.evict.map (·.2)).Nodup)
    (hmem : ∀ i x, (v.blocks i).int = some x → i ≠ c → v'.mem x = v.mem x) (hd : v'.disk = v.disk) : Inv dflt v' a := by
  have ha := h.core.att c p hc
  have hext : ∀ j, (v'.blocks j).ext = (v.blocks j).ext := by
    intro j; rw [hb]; by_cases e : j = c
    · subst e; rw [set_same]
    · rw [set_other _ _ e]
  have hint : ∀ i q, (v'.blocks i).int = some q → (v.blocks i).int = some q ∧ i ≠ c := by
    intro i q hi; rw [hb] at hi; by_cases e : i = c
    · subst e; rw [set_same] at hi; cases hi
    · rw [set_other _ _ e] at hi; exact ⟨hi, e⟩
  refine ⟨?_, ⟨hen, fun i => ?_, fun i => ?_⟩, fun i => ?_, fun x => ?_⟩
  · constructor
    · rw [hm, hr, hx]; exact h.core.total
    · exact hfn
    · intro q hq; rw [hx]
      rcases (hf q).1 hq with hq | rfl
      · exact h.core.freeLt q hq
      · exact ha.2.1
    · intro i q hi
      obtain ⟨h1, h2⟩ := hint i q hi
      have := h.core.att i q h1
      rw [hn, hx, hf]
      refine ⟨this.1, this.2.1, fun hc' => ?_, by simp⟩
      rcases hc' with hc' | rfl
      · exact this.2.2.1 hc'
      · exact h2 (h.core.inj i c q h1 hc)
    · intro i j q h1 h2; exact h.core.inj i j q (hint i q h1).1 (hint j q h2).1
    · intro q hq; cases hq
    · intro q hq; rw [hx] at hq
      rcases h.core.cover q hq with h1 | h1 | ⟨i, h1⟩
      · exact .inl ((hf q).2 (.inl h1))
      · cases h1
      · by_cases e : i = c
        · subst e; rw [hc] at h1; cases h1; exact .inl ((hf p).2 (.inr rfl))
        · exact .inr (.inr ⟨i, by rw [hb, set_other _ _ e]; exact h1⟩)
    · intro i hi
      rw [hb] at hi ⊢
      by_cases e : i = c
      · subst e; rw [set_same] at hi; simp only [hd0] at hi; cases hi
      · rw [set_other _ _ e] at hi ⊢; exact h.core.dirtyInt i hi
    · intro i hi
      rw [hb] at hi ⊢
      by_cases e : i = c
      · subst e; rw [set_same] at hi; simp only [hr0] at hi; omega
      · rw [set_other _ _ e] at hi ⊢; exact h.core.refsInt i hi
    · intro i j e; rw [hext, hext]; exact h.core.extOwn i j e
    · intro i e; rw [hext, hn, hh]; exact h.core.extLive i e
  · rw [he, hb]
    by_cases e : i = c
    · subst e; rw [set_same]; simp
    · rw [set_other _ _ e, ← h.ev.mem i]; simp [e]
  · rw [hb]
    by_cases e : i = c
    · subst e; rw [set_same]; simp
    · rw [set_other _ _ e]; exact h.ev.valid i
  · by_cases e' : i = c
    · subst e'
      have hi := h.ok i
      constructor
      · rw [hb, set_same]; exact hi.refs
      · intro q _ hq; rw [hb, set_same] at hq; cases hq
      · intro _ _; rw [hb, set_same, hd]; exact hi.idleOut hr0 hd0
      · intro q h1; rw [hb, set_same] at h1; simp only [hr0] at h1; omega
    · exact ok_frame (h.ok i) (by rw [hb, set_other _ _ e']) (fun q hq => hmem i q hq e') (fun e _ => by rw [hd]) rfl rfl rfl rfl
  · rw [hd, hh]; exact h.held x

end Foxxll.Swap
