import Verif.Spec.BlockScheduler

set_option linter.unusedSimpArgs false
set_option linter.unusedVariables false

namespace Foxxll.Swap

variable {D : Type}

/-! ### Lists of evictable blocks -/

theorem best_mem (x : Nat × Nat) (l : List (Nat × Nat)) : best x l ∈ x :: l := by
  induction l generalizing x with
  | nil => simp [best]
  | cons y l ih =>
    simp only [best]
    split
    · have := ih x
      rcases List.mem_cons.1 this with h | h
      · rw [h]; simp
      · simp [h]
    · have := ih y
      exact List.mem_cons_of_mem _ this

theorem better_refl (x : Nat × Nat) : better x x = true := by simp [better]

theorem better_trans {x y z : Nat × Nat} (h1 : better x y = true) (h2 : better y z = true) : better x z = true := by
  simp only [better, Bool.or_eq_true, Bool.and_eq_true, decide_eq_true_eq] at *
  omega

theorem better_total {x y : Nat × Nat} (h : ¬ better x y = true) : better y x = true := by
  simp only [better, Bool.or_eq_true, Bool.and_eq_true, decide_eq_true_eq, not_or, not_and] at *
  omega

theorem best_better (x : Nat × Nat) (l : List (Nat × Nat)) : ∀ y ∈ x :: l, better (best x l) y = true := by
  induction l generalizing x with
  | nil => intro y hy; simp only [List.mem_singleton] at hy; subst hy; exact better_refl _
  | cons z l ih =>
    intro y hy
    simp only [best]
    by_cases h : better x z = true
    · rw [if_pos h]
      rcases List.mem_cons.1 hy with rfl | hy
      · exact ih y y (by simp)
      · rcases List.mem_cons.1 hy with rfl | hy
        · exact better_trans (ih x x (by simp)) h
        · exact ih x y (by simp [hy])
    · rw [if_neg h]
      rcases List.mem_cons.1 hy with rfl | hy
      · exact better_trans (ih z z (by simp)) (better_total h)
      · exact ih z y hy

theorem pop_perm {m : Mode} {l : List (Nat × Nat)} {x rest} (h : popEvict m l = some (x, rest)) : l.Perm (x :: rest) := by
  cases l with
  | nil => simp [popEvict] at h
  | cons y l =>
    cases m with
    | lru => simp only [popEvict, Option.some.injEq, Prod.mk.injEq] at h; obtain ⟨rfl, rfl⟩ := h; exact List.Perm.refl _
    | lfd =>
      simp only [popEvict, Option.some.injEq, Prod.mk.injEq] at h
      obtain ⟨rfl, rfl⟩ := h
      exact List.perm_cons_erase (best_mem y l)

theorem pop_none {m : Mode} {l : List (Nat × Nat)} (h : popEvict m l = none) : l = [] := by
  cases l with
  | nil => rfl
  | cons y l => cases m <;> simp [popEvict] at h

theorem erase_ids (l : List (Nat × Nat)) (id j : Nat) : j ∈ (eraseEvict l id).map (·.2) ↔ j ∈ l.map (·.2) ∧ j ≠ id := by
  simp only [eraseEvict, List.mem_map, List.mem_filter, bne_iff_ne, ne_eq]
  constructor
  · rintro ⟨x, ⟨h1, h2⟩, rfl⟩; exact ⟨⟨x, h1, rfl⟩, h2⟩
  · rintro ⟨⟨x, h1, rfl⟩, h2⟩; exact ⟨x, ⟨h1, h2⟩, rfl⟩

theorem erase_nodup {l : List (Nat × Nat)} (id : Nat) (h : (l.map (·.2)).Nodup) : ((eraseEvict l id).map (·.2)).Nodup :=
  h.sublist (List.Sublist.map _ List.filter_sublist)

theorem insert_ids (l : List (Nat × Nat)) (p id j : Nat) : j ∈ (insertEvict l p id).map (·.2) ↔ j ∈ l.map (·.2) ∨ j = id := by
  rw [insertEvict, List.map_append, List.mem_append, erase_ids]
  simp only [List.map_cons, List.map_nil, List.mem_singleton]
  constructor
  · rintro (h | h)
    · exact .inl h.1
    · exact .inr h
  · rintro (h | h)
    · by_cases e : j = id
      · exact .inr e
      · exact .inl ⟨h, e⟩
    · exact .inr h

theorem insert_nodup {l : List (Nat × Nat)} (p id : Nat) (h : (l.map (·.2)).Nodup) : ((insertEvict l p id).map (·.2)).Nodup := by
  rw [insertEvict, List.map_append]
  refine List.nodup_append.2 ⟨erase_nodup id h, by simp, fun a ha b hb => ?_⟩
  simp only [List.map_cons, List.map_nil, List.mem_singleton] at hb
  subst hb
  exact ((erase_ids l b a).1 ha).2

/-! ### Invariants -/

/-- Internal and external blocks are accounted for; `hand` is an internal block neither free nor attached. -/
structure Core (s : St D) (hand : Option Nat) : Prop where
  total : s.next + s.remaining = s.max
  freeNd : s.free.Nodup
  freeLt : ∀ p ∈ s.free, p < s.next
  att : ∀ i p, (s.blocks i).int = some p → i < s.n ∧ p < s.next ∧ p ∉ s.free ∧ hand ≠ some p
  inj : ∀ i j p, (s.blocks i).int = some p → (s.blocks j).int = some p → i = j
  handOk : ∀ p, hand = some p → p < s.next ∧ p ∉ s.free
  cover : ∀ p, p < s.next → p ∈ s.free ∨ hand = some p ∨ ∃ i, (s.blocks i).int = some p
  dirtyInt : ∀ i, (s.blocks i).dirty = true → (s.blocks i).int ≠ none
  refsInt : ∀ i, 0 < (s.blocks i).refs → (s.blocks i).int ≠ none
  extOwn : ∀ i j e, (s.blocks i).ext = some e → (s.blocks j).ext = some e → i = j
  extLive : ∀ i e, (s.blocks i).ext = some e → i < s.n ∧ e ∉ s.held

/-- The evictable blocks are those that are internal and not acquired; they have data. -/
structure Ev (s : St D) : Prop where
  nd : (s.evict.map (·.2)).Nodup
  mem : ∀ i, i ∈ s.evict.map (·.2) ↔ (s.blocks i).int ≠ none ∧ (s.blocks i).refs = 0
  valid : ∀ i, (s.blocks i).int ≠ none → (s.blocks i).refs = 0 → (s.blocks i).dirty = true ∨ (s.blocks i).ext ≠ none

@[simp] theorem set_same (s : St D) (i : Nat) (b : SB) : (s.set i b).blocks i = b := by simp [St.set]
theorem set_other (s : St D) {i j : Nat} (b : SB) (h : j ≠ i) : (s.set i b).blocks j = s.blocks j := by simp [St.set, h]
@[simp] theorem set_max (s : St D) (i b) : (s.set i b).max = s.max := rfl
@[simp] theorem set_remaining (s : St D) (i b) : (s.set i b).remaining = s.remaining := rfl
@[simp] theorem set_next (s : St D) (i b) : (s.set i b).next = s.next := rfl
@[simp] theorem set_free (s : St D) (i b) : (s.set i b).free = s.free := rfl
@[simp] theorem set_n (s : St D) (i b) : (s.set i b).n = s.n := rfl
@[simp] theorem set_evict (s : St D) (i b) : (s.set i b).evict = s.evict := rfl
@[simp] theorem set_mode (s : St D) (i b) : (s.set i b).mode = s.mode := rfl
@[simp] theorem set_mem (s : St D) (i b) : (s.set i b).mem = s.mem := rfl
@[simp] theorem set_disk (s : St D) (i b) : (s.set i b).disk = s.disk := rfl
@[simp] theorem set_held (s : St D) (i b) : (s.set i b).held = s.held := rfl
@[simp] theorem set_freeIds (s : St D) (i b) : (s.set i b).freeIds = s.freeIds := rfl

theorem mem_live {s : St D} {hand} (h : Core s hand) {i e : Nat} (hi : (s.blocks i).ext = some e) : e ∈ s.live :=
  List.mem_append.2 (.inl (List.mem_filterMap.2 ⟨i, List.mem_range.2 (h.extLive i e hi).1, hi⟩))

/-- What `detach` does. -/
structure Detached (s : St D) (id p : Nat) (s' : St D) : Prop where
  was : (s.blocks id).int = some p
  refs0 : (s.blocks id).refs = 0
  int' : (s'.blocks id).int = none
  refs' : (s'.blocks id).refs = 0
  dirty' : (s'.blocks id).dirty = false
  ext' : (s.blocks id).dirty = false → (s'.blocks id).ext = (s.blocks id).ext ∧ s'.disk = s.disk
  extD : (s.blocks id).dirty = true → ∃ e, (s'.blocks id).ext = some e ∧ ((s.blocks id).ext = some e ∨ e ∉ s.live) ∧
    s'.disk = fun j => if j = e then s.mem p else s.disk j
  other : ∀ j, j ≠ id → s'.blocks j = s.blocks j
  rest : s'.max = s.max ∧ s'.remaining = s.remaining ∧ s'.next = s.next ∧ s'.free = s.free ∧ s'.n = s.n ∧ s'.evict = s.evict ∧
    s'.mem = s.mem ∧ s'.held = s.held ∧ s'.mode = s.mode ∧ s'.freeIds = s.freeIds

theorem detach_ok (E : Env D) (hE : ∀ l, E.pick l ∉ l) (s : St D) (id p : Nat) (hi : (s.blocks id).int = some p) (hr : (s.blocks id).refs = 0) :
    ∃ s', detach E s id = some (p, s') ∧ Detached s id p s' := by
  have hev : (s.blocks id).isEvictable = true := by simp [SB.isEvictable, SB.isAcquired, SB.isInternal, hi, hr]
  cases hd : (s.blocks id).dirty with
  | false =>
    refine ⟨s.set id { s.blocks id with int := none }, by simp [detach, hev, clean, hd, hi], ⟨hi, hr, by simp, by simp [hr], by simp [hd], by simp, by simp [hd], fun j hj => set_other _ _ hj, by simp⟩⟩
  | true =>
    refine ⟨_, by simp only [detach, hev, if_true, clean, hd, hi, Option.bind_some, set_same]; rfl, ⟨hi, hr, by simp, by simp [hr], by simp, by simp [hd], fun _ => ?_, fun j hj => ?_, by simp [St.set]⟩⟩
    · refine ⟨((s.blocks id).ext).getD (E.pick s.live), by simp, ?_, rfl⟩
      cases he : (s.blocks id).ext with
      | none => exact .inr (by simpa using hE s.live)
      | some e => exact .inl rfl
    · simp [St.set, hj]

theorem detach_inv {E : Env D} (hE : ∀ l, E.pick l ∉ l) {s s' : St D} {id p : Nat} (h : detach E s id = some (p, s')) : Detached s id p s' := by
  have hev : (s.blocks id).isEvictable = true := by
    unfold detach at h; split at h
    · assumption
    · cases h
  simp only [SB.isEvictable, SB.isAcquired, SB.isInternal, Bool.and_eq_true, Bool.not_eq_true', decide_eq_false_iff_not] at hev
  obtain ⟨q, hq⟩ := Option.isSome_iff_exists.1 hev.2
  obtain ⟨s2, h2, hd⟩ := detach_ok E hE s id q hq (by omega)
  rw [h2] at h; cases h; exact hd

theorem detached_core {s s' : St D} {id p : Nat} (h : Core s none) (hd : Detached s id p s') : Core s' (some p) := by
  obtain ⟨r1, r2, r3, r4, r5, r6, r7, r8, r9, r10⟩ := hd.rest
  have ha := h.att id p hd.was
  have ht := h.total
  constructor
  · omega
  · rw [r4]; exact h.freeNd
  · rw [r4, r3]; exact h.freeLt
  · intro i q hq
    by_cases e : i = id
    · subst e; rw [hd.int'] at hq; cases hq
    · rw [hd.other i e] at hq
      have := h.att i q hq
      rw [r3, r4, r5]
      refine ⟨this.1, this.2.1, this.2.2.1, fun hc => ?_⟩
      cases hc
      exact e (h.inj i id p hq hd.was)
  · intro i j q hq hq'
    by_cases e : i = id
    · subst e; rw [hd.int'] at hq; cases hq
    · by_cases e' : j = id
      · subst e'; rw [hd.int'] at hq'; cases hq'
      · rw [hd.other i e] at hq; rw [hd.other j e'] at hq'; exact h.inj i j q hq hq'
  · intro q hq; cases hq; rw [r3, r4]; exact ⟨ha.2.1, ha.2.2.1⟩
  · intro q hq
    rw [r3] at hq
    rcases h.cover q hq with hc | hc | ⟨i, hc⟩
    · rw [r4]; exact .inl hc
    · cases hc
    · by_cases e : i = id
      · subst e; rw [hd.was] at hc; cases hc; exact .inr (.inl rfl)
      · exact .inr (.inr ⟨i, by rw [hd.other i e]; exact hc⟩)
  · intro i hi
    by_cases e : i = id
    · subst e; rw [hd.dirty'] at hi; cases hi
    · rw [hd.other i e] at hi ⊢; exact h.dirtyInt i hi
  · intro i hi
    by_cases e : i = id
    · subst e; rw [hd.refs'] at hi; omega
    · rw [hd.other i e] at hi ⊢; exact h.refsInt i hi
  · have key : ∀ j e, j ≠ id → (s'.blocks id).ext = some e → (s'.blocks j).ext = some e → False := by
      intro j e hj h1 h2
      rw [hd.other j hj] at h2
      cases hdy : (s.blocks id).dirty with
      | false => rw [(hd.ext' hdy).1] at h1; exact hj (h.extOwn j id e h2 h1)
      | true =>
        obtain ⟨e', g1, g2, _⟩ := hd.extD hdy
        rw [g1] at h1; cases h1
        rcases g2 with g2 | g2
        · exact hj (h.extOwn j id e h2 g2)
        · exact g2 (mem_live h h2)
    intro i j e h1 h2
    by_cases ei : i = id <;> by_cases ej : j = id
    · rw [ei, ej]
    · subst ei; exact (key j e ej h1 h2).elim
    · subst ej; exact (key i e ei h2 h1).elim
    · rw [hd.other i ei] at h1; rw [hd.other j ej] at h2; exact h.extOwn i j e h1 h2
  · intro i e he
    rw [r5, r8]
    by_cases ei : i = id
    · subst ei
      refine ⟨ha.1, ?_⟩
      cases hdy : (s.blocks i).dirty with
      | false => rw [(hd.ext' hdy).1] at he; exact (h.extLive i e he).2
      | true =>
        obtain ⟨e', g1, g2, _⟩ := hd.extD hdy
        rw [g1] at he; cases he
        rcases g2 with g2 | g2
        · exact (h.extLive i _ g2).2
        · exact fun hm => g2 (List.mem_append.2 (.inr hm))
    · rw [hd.other i ei] at he; exact h.extLive i e he

theorem giveBack_core {s : St D} {p : Nat} (h : Core s (some p)) : Core (giveBack s p) none := by
  have hp := h.handOk p rfl
  constructor
  · exact h.total
  · exact List.nodup_cons.2 ⟨hp.2, h.freeNd⟩
  · intro q hq
    rcases List.mem_cons.1 hq with rfl | hq
    · exact hp.1
    · exact h.freeLt q hq
  · intro i q hq
    have := h.att i q hq
    refine ⟨this.1, this.2.1, fun hm => ?_, by simp⟩
    rcases List.mem_cons.1 hm with rfl | hm
    · exact this.2.2.2 rfl
    · exact this.2.2.1 hm
  · exact h.inj
  · intro q hq; cases hq
  · intro q hq
    rcases h.cover q hq with hc | hc | hc
    · exact .inl (List.mem_cons_of_mem _ hc)
    · cases hc; exact .inl List.mem_cons_self
    · exact .inr (.inr hc)
  · exact h.dirtyInt
  · exact h.refsInt
  · exact h.extOwn
  · exact h.extLive

/-- Results of `getFreeBs`. -/
theorem getFreeBs_core {s s1 : St D} {p : Nat} (h : Core s none) (hg : getFreeBs s = (some p, s1)) :
    Core s1 (some p) ∧ s1.blocks = s.blocks ∧ s1.evict = s.evict ∧ s1.mem = s.mem ∧ s1.disk = s.disk ∧ s1.held = s.held ∧
      s1.n = s.n ∧ s1.max = s.max ∧ s1.mode = s.mode := by
  unfold getFreeBs at hg
  split at hg
  · rename_i q rest hf
    cases hg
    refine ⟨?_, rfl, rfl, rfl, rfl, rfl, rfl, rfl, rfl⟩
    have hn := h.freeNd
    rw [hf] at hn
    obtain ⟨hn1, hn2⟩ := List.nodup_cons.1 hn
    constructor
    · exact h.total
    · exact hn2
    · intro q hq; exact h.freeLt q (by rw [hf]; simp [hq])
    · intro i q hq
      have := h.att i q hq
      rw [hf] at this
      simp only [List.mem_cons, not_or] at this
      exact ⟨this.1, this.2.1, this.2.2.1.2, fun hc => this.2.2.1.1 (by cases hc; rfl)⟩
    · exact h.inj
    · intro q hq; cases hq; exact ⟨h.freeLt p (by rw [hf]; simp), hn1⟩
    · intro q hq
      rcases h.cover q hq with hc | hc | hc
      · rw [hf] at hc
        rcases List.mem_cons.1 hc with rfl | hc
        · exact .inr (.inl rfl)
        · exact .inl hc
      · cases hc
      · exact .inr (.inr hc)
    · exact h.dirtyInt
    · exact h.refsInt
    · exact h.extOwn
    · exact h.extLive
  · rename_i hf
    split at hg
    · rename_i hr
      cases hg
      refine ⟨?_, rfl, rfl, rfl, rfl, rfl, rfl, rfl, rfl⟩
      have hk : 0 < min allocAtOnce s.remaining ∧ min allocAtOnce s.remaining ≤ s.remaining := by
        simp only [allocAtOnce]; omega
      have ht := h.total
      generalize min allocAtOnce s.remaining = k at hk
      have mem_r : ∀ q, q ∈ List.range' (s.next + 1) (k - 1) ↔ s.next + 1 ≤ q ∧ q < s.next + k := by
        intro q; rw [List.mem_range'_1]; omega
      constructor
      · show s.next + k + (s.remaining - k) = s.max
        omega
      · exact List.nodup_range' (step := 1)
      · intro q hq
        have := (mem_r q).1 hq
        show q < s.next + k
        omega
      · intro i q hq
        have := h.att i q hq
        refine ⟨this.1, ?_, fun hm => ?_, fun hc => ?_⟩
        · show q < s.next + k
          omega
        · have := (mem_r q).1 hm; omega
        · cases hc; omega
      · exact h.inj
      · intro q hq
        cases hq
        refine ⟨?_, fun hm => ?_⟩
        · show s.next < s.next + k
          omega
        · have := (mem_r _).1 hm; omega
      · intro q hq
        have hq' : q < s.next + k := hq
        by_cases e : q < s.next
        · rcases h.cover q e with hc | hc | hc
          · rw [hf] at hc; cases hc
          · cases hc
          · exact .inr (.inr hc)
        · by_cases e' : q = s.next
          · exact .inr (.inl (by rw [e']))
          · exact .inl ((mem_r q).2 (by omega))
      · exact h.dirtyInt
      · exact h.refsInt
      · exact h.extOwn
      · exact h.extLive
    · cases hg

theorem getFreeBs_none {s s1 : St D} (hg : getFreeBs s = (none, s1)) : s1 = s ∧ s.free = [] ∧ s.remaining = 0 := by
  unfold getFreeBs at hg
  split at hg
  · cases hg
  · rename_i hf
    split at hg
    · cases hg
    · cases hg; exact ⟨rfl, hf, by omega⟩

/-- How a block may look after the eviction of some blocks: data of unacquired blocks moves to the disk. -/
structure Evicted (s s' : St D) : Prop where
  n : s'.n = s.n
  mem : s'.mem = s.mem
  held : s'.held = s.held
  heldDisk : ∀ e ∈ s.held, s'.disk e = s.disk e
  same : ∀ j, (s'.blocks j = s.blocks j ∧ ∀ e, (s.blocks j).ext = some e → s'.disk e = s.disk e) ∨
    (∃ p, (s.blocks j).int = some p ∧ (s.blocks j).refs = 0 ∧ (s'.blocks j).int = none ∧ (s'.blocks j).refs = 0 ∧ (s'.blocks j).dirty = false ∧
      (s'.blocks j).ext.map s'.disk = if (s.blocks j).dirty then some (s.mem p) else (s.blocks j).ext.map s.disk)

theorem Evicted.refl (s : St D) : Evicted s s := ⟨rfl, rfl, rfl, fun _ _ => rfl, fun j => .inl ⟨rfl, fun _ _ => rfl⟩⟩

/-- Unchanged contents only matter for blocks, memory, disk. -/
theorem Evicted.congr {s s' t : St D} (h : Evicted s s') (hb : t.blocks = s'.blocks) (hm : t.mem = s'.mem) (hd : t.disk = s'.disk)
    (hh : t.held = s'.held) (hn : t.n = s'.n) : Evicted s t :=
  ⟨by rw [hn, h.n], by rw [hm, h.mem], by rw [hh, h.held], by rw [hd]; exact h.heldDisk, by rw [hb, hd]; exact h.same⟩

theorem Evicted.congrL {s s' t : St D} (h : Evicted s s') (hb : t.blocks = s.blocks) (hm : t.mem = s.mem) (hd : t.disk = s.disk)
    (hh : t.held = s.held) (hn : t.n = s.n) : Evicted t s' :=
  ⟨by rw [hn, h.n], by rw [hm, h.mem], by rw [hh, h.held], by rw [hd, hh]; exact h.heldDisk, by rw [hb, hd, hm]; exact h.same⟩

theorem detached_evicted {s s' : St D} {id p : Nat} (h : Core s none) (hd : Detached s id p s') : Evicted s s' := by
  obtain ⟨r1, r2, r3, r4, r5, r6, r7, r8, r9, r10⟩ := hd.rest
  refine ⟨r5, r7, r8, ?_, ?_⟩
  · intro e he
    cases hdy : (s.blocks id).dirty with
    | false => rw [(hd.ext' hdy).2]
    | true =>
      obtain ⟨e', g1, g2, g3⟩ := hd.extD hdy
      rw [g3]
      have : e ≠ e' := by
        rintro rfl
        rcases g2 with g2 | g2
        · exact (h.extLive id e g2).2 he
        · exact g2 (List.mem_append.2 (.inr he))
      simp [this]
  · intro j
    by_cases e : j = id
    · subst e
      refine .inr ⟨p, hd.was, hd.refs0, hd.int', hd.refs', hd.dirty', ?_⟩
      cases hdy : (s.blocks j).dirty with
      | false => rw [(hd.ext' hdy).1, (hd.ext' hdy).2]; simp
      | true =>
        obtain ⟨e', g1, g2, g3⟩ := hd.extD hdy
        rw [g1, g3]; simp
    · refine .inl ⟨hd.other j e, fun x hx => ?_⟩
      cases hdy : (s.blocks id).dirty with
      | false => rw [(hd.ext' hdy).2]
      | true =>
        obtain ⟨e', g1, g2, g3⟩ := hd.extD hdy
        rw [g3]
        have : x ≠ e' := by
          rintro rfl
          rcases g2 with g2 | g2
          · exact e (h.extOwn j id x hx g2)
          · exact g2 (mem_live h hx)
        simp [this]

theorem Evicted.trans {s t u : St D} (h1 : Evicted s t) (h2 : Evicted t u) : Evicted s u := by
  refine ⟨by rw [h2.n, h1.n], by rw [h2.mem, h1.mem], by rw [h2.held, h1.held], ?_, ?_⟩
  · intro e he; rw [h2.heldDisk e (by rw [h1.held]; exact he), h1.heldDisk e he]
  · intro j
    rcases h1.same j with ⟨a1, a2⟩ | ⟨p, a1, a2, a3, a4, a5, a6⟩
    · rcases h2.same j with ⟨b1, b2⟩ | ⟨p, b1, b2, b3, b4, b5, b6⟩
      · refine .inl ⟨by rw [b1, a1], fun e he => ?_⟩
        rw [b2 e (by rw [a1]; exact he), a2 e he]
      · refine .inr ⟨p, by rw [← a1]; exact b1, by rw [← a1]; exact b2, b3, b4, b5, ?_⟩
        rw [b6, a1, h1.mem]
        cases hd : (s.blocks j).dirty with
        | true => simp
        | false =>
          simp only [Bool.false_eq_true, if_false]
          cases he : (s.blocks j).ext with
          | none => rfl
          | some e => simp [a2 e he]
    · rcases h2.same j with ⟨b1, b2⟩ | ⟨p', b1, b2, b3, b4, b5, b6⟩
      · refine .inr ⟨p, a1, a2, by rw [b1]; exact a3, by rw [b1]; exact a4, by rw [b1]; exact a5, ?_⟩
        rw [← a6, b1]
        cases he : (t.blocks j).ext with
        | none => rfl
        | some e => simp [b2 e he]
      · rw [a3] at b1; cases b1

theorem detached_ev {s s' : St D} {x : Nat × Nat} {rest : List (Nat × Nat)} {p : Nat} (h : Ev s) (hp : s.evict.Perm (x :: rest))
    (hd : Detached { s with evict := rest } x.2 p s') : Ev s' := by
  have hids : (s.evict.map (·.2)).Perm (x.2 :: rest.map (·.2)) := hp.map _
  have hnd := hids.nodup_iff.1 h.nd
  obtain ⟨n1, n2⟩ := List.nodup_cons.1 hnd
  have he : s'.evict = rest := hd.rest.2.2.2.2.2.1
  constructor
  · rw [he]; exact n2
  · intro i
    rw [he]
    by_cases e : i = x.2
    · subst e
      constructor
      · intro hm; exact absurd hm n1
      · rintro ⟨hc, _⟩; exact absurd hd.int' hc
    · rw [hd.other i e]
      show _ ↔ (s.blocks i).int ≠ none ∧ (s.blocks i).refs = 0
      rw [← h.mem i, hids.mem_iff, List.mem_cons]
      constructor
      · exact .inr
      · rintro (hc | hc)
        · exact absurd hc e
        · exact hc
  · intro i hi hr
    by_cases e : i = x.2
    · subst e; exact absurd hd.int' hi
    · rw [hd.other i e] at hi hr ⊢; exact h.valid i hi hr

theorem Core.evict {s : St D} {hand} (h : Core s hand) (m : Mode) (l : List (Nat × Nat)) : Core { s with mode := m, evict := l } hand :=
  ⟨h.total, h.freeNd, h.freeLt, h.att, h.inj, h.handOk, h.cover, h.dirtyInt, h.refsInt, h.extOwn, h.extLive⟩

theorem Ev.congr {s t : St D} (h : Ev s) (hb : t.blocks = s.blocks) (he : t.evict = s.evict) : Ev t :=
  ⟨by rw [he]; exact h.nd, by rw [he, hb]; exact h.mem, by rw [hb]; exact h.valid⟩

/-- `getFree` succeeds unless there is no memory. -/
theorem getFree_spec (E : Env D) (hE : ∀ l, E.pick l ∉ l) {s : St D} (h : Core s none) (he : Ev s) :
    (getFree E s = none ∧ s.free = [] ∧ s.remaining = 0 ∧ s.evict = []) ∨
      ∃ p s1, getFree E s = some (p, s1) ∧ Core s1 (some p) ∧ Ev s1 ∧ Evicted s s1 ∧ s1.max = s.max := by
  unfold getFree
  cases hg : getFreeBs s with
  | mk o s1 =>
    cases o with
    | some p =>
      obtain ⟨c, h1, h2, h3, h4, h5, h6, h7, h8⟩ := getFreeBs_core h hg
      exact .inr ⟨p, s1, rfl, c, he.congr h1 h2, (Evicted.refl s).congr h1 h3 h4 h5 h6, h7⟩
    | none =>
      obtain ⟨rfl, hf, hr⟩ := getFreeBs_none hg
      simp only
      cases hp : popEvict s1.mode s1.evict with
      | none => exact .inl ⟨rfl, hf, hr, pop_none hp⟩
      | some xr =>
        obtain ⟨x, rest⟩ := xr
        have hperm := pop_perm hp
        have hm := (he.mem x.2).1 ((hperm.map (·.2)).mem_iff.2 (by simp))
        obtain ⟨p, hi⟩ := Option.ne_none_iff_exists'.1 hm.1
        obtain ⟨s', h1, h2⟩ := detach_ok E hE { s1 with evict := rest } x.2 p hi hm.2
        refine .inr ⟨p, s', h1, detached_core (h.evict s1.mode rest) h2, detached_ev he hperm h2, ?_, h2.rest.1⟩
        exact (detached_evicted (h.evict s1.mode rest) h2).congrL rfl rfl rfl rfl rfl

/-! ### Refinement -/

/-- Block `i` and what the client knows about it. -/
structure Ok (dflt : D) (s : St D) (a : Abs D) (i : Nat) : Prop where
  refs : a.refs i = (s.blocks i).refs
  idleIn : ∀ p, (s.blocks i).refs = 0 → (s.blocks i).int = some p → a.data i = some (s.mem p)
  idleOut : (s.blocks i).refs = 0 → (s.blocks i).dirty = false → a.data i = (s.blocks i).ext.map s.disk
  used : ∀ p, 0 < (s.blocks i).refs → (s.blocks i).int = some p → a.work i = some (s.mem p) ∧
    (a.changed i = false → a.data i = (if (s.blocks i).dirty then some (s.mem p) else (s.blocks i).ext.map s.disk) ∧
      s.mem p = (a.data i).getD dflt)

/-- External blocks of the client. -/
def HeldOk (s : St D) (a : Abs D) : Prop := ∀ e, (a.held e ≠ none ↔ e ∈ s.held) ∧ ∀ d, a.held e = some d → s.disk e = d

structure Inv (dflt : D) (s : St D) (a : Abs D) : Prop where
  core : Core s none
  ev : Ev s
  ok : ∀ i, Ok dflt s a i
  held : HeldOk s a

theorem Ok.evicted {dflt : D} {s s' : St D} {a : Abs D} (h : ∀ i, Ok dflt s a i) (he : Evicted s s') : ∀ i, Ok dflt s' a i := by
  intro i
  have hi := h i
  rcases he.same i with ⟨a1, a2⟩ | ⟨p, a1, a2, a3, a4, a5, a6⟩
  · have hext : (s.blocks i).ext.map s'.disk = (s.blocks i).ext.map s.disk := by
      cases hx : (s.blocks i).ext with
      | none => rfl
      | some e => simp [a2 e hx]
    constructor
    · rw [a1]; exact hi.refs
    · rw [a1, he.mem]; exact hi.idleIn
    · rw [a1, hext]; exact hi.idleOut
    · rw [a1, he.mem, hext]; exact hi.used
  · constructor
    · rw [hi.refs, a2, a4]
    · intro q _ hq; rw [a3] at hq; cases hq
    · intro _ _
      rw [a6]
      cases hd : (s.blocks i).dirty with
      | true => simp [hi.idleIn p a2 a1]
      | false => simp [hi.idleOut a2 hd]
    · intro q hq; rw [a4] at hq; omega

theorem HeldOk.evicted {s s' : St D} {a : Abs D} (h : HeldOk s a) (he : Evicted s s') : HeldOk s' a := by
  intro e
  obtain ⟨h1, h2⟩ := h e
  refine ⟨by rw [he.held]; exact h1, fun d hd => ?_⟩
  rw [he.heldDisk e (h1.1 (by rw [hd]; simp))]
  exact h2 d hd

theorem init_inv (dflt : D) (memory size : Nat) (mem disk : Nat → D) : Inv dflt (init memory size mem disk) {} := by
  refine ⟨⟨?_, ?_, ?_, ?_, ?_, ?_, ?_, ?_, ?_, ?_, ?_⟩, ⟨?_, ?_, ?_⟩, fun i => ⟨?_, ?_, ?_, ?_⟩, fun e => ⟨?_, ?_⟩⟩ <;> simp [init]

/-- Changes of flags only. -/
theorem core_flags {s : St D} {hand} (h : Core s hand) (id : Nat) (b : SB) (hi : b.int = (s.blocks id).int) (he : b.ext = (s.blocks id).ext)
    (hd : b.dirty = true → b.int ≠ none) (hr : 0 < b.refs → b.int ≠ none) : Core (s.set id b) hand := by
  have int_eq : ∀ j, ((s.set id b).blocks j).int = (s.blocks j).int := by
    intro j; by_cases e : j = id
    · subst e; rw [set_same, hi]
    · rw [set_other _ _ e]
  have ext_eq : ∀ j, ((s.set id b).blocks j).ext = (s.blocks j).ext := by
    intro j; by_cases e : j = id
    · subst e; rw [set_same, he]
    · rw [set_other _ _ e]
  constructor
  · exact h.total
  · exact h.freeNd
  · exact h.freeLt
  · intro i p; rw [int_eq]; exact h.att i p
  · intro i j p; rw [int_eq, int_eq]; exact h.inj i j p
  · exact h.handOk
  · intro p hp; simp only [int_eq]; exact h.cover p hp
  · intro i; by_cases e : i = id
    · subst e; rw [set_same]; exact hd
    · rw [set_other _ _ e]; exact h.dirtyInt i
  · intro i; by_cases e : i = id
    · subst e; rw [set_same]; exact hr
    · rw [set_other _ _ e]; exact h.refsInt i
  · intro i j e; rw [ext_eq, ext_eq]; exact h.extOwn i j e
  · intro i e; rw [ext_eq]; exact h.extLive i e

theorem Core.congr {s t : St D} {hand} (h : Core s hand) (h1 : t.max = s.max) (h2 : t.remaining = s.remaining) (h3 : t.next = s.next)
    (h4 : t.free = s.free) (h5 : t.n = s.n) (h6 : t.blocks = s.blocks) (h7 : t.held = s.held) : Core t hand := by
  constructor
  · rw [h1, h2, h3]; exact h.total
  · rw [h4]; exact h.freeNd
  · rw [h4, h3]; exact h.freeLt
  · rw [h6, h5, h3, h4]; exact h.att
  · rw [h6]; exact h.inj
  · rw [h3, h4]; exact h.handOk
  · rw [h3, h4, h6]; exact h.cover
  · rw [h6]; exact h.dirtyInt
  · rw [h6]; exact h.refsInt
  · rw [h6]; exact h.extOwn
  · rw [h6, h5, h7]; exact h.extLive

/-- Block `id` gets the internal block in hand. -/
theorem core_attach {s : St D} {p : Nat} (h : Core s (some p)) (id : Nat) (hid : id < s.n) (b : SB) (hi : (s.blocks id).int = none)
    (hb : b.int = some p) (he : b.ext = (s.blocks id).ext) : Core (s.set id b) none := by
  have hp := h.handOk p rfl
  have ext_eq : ∀ j, ((s.set id b).blocks j).ext = (s.blocks j).ext := by
    intro j; by_cases e : j = id
    · subst e; rw [set_same, he]
    · rw [set_other _ _ e]
  constructor
  · exact h.total
  · exact h.freeNd
  · exact h.freeLt
  · intro i q
    by_cases e : i = id
    · subst e; rw [set_same, hb]; rintro ⟨⟩; exact ⟨hid, hp.1, hp.2, by simp⟩
    · rw [set_other _ _ e]; intro hq
      obtain ⟨a1, a2, a3, a4⟩ := h.att i q hq
      exact ⟨a1, a2, a3, by simp⟩
  · intro i j q h1 h2
    by_cases ei : i = id <;> by_cases ej : j = id
    · rw [ei, ej]
    · subst ei; rw [set_same, hb] at h1; cases h1; rw [set_other _ _ ej] at h2; exact absurd rfl (h.att j p h2).2.2.2
    · subst ej; rw [set_same, hb] at h2; cases h2; rw [set_other _ _ ei] at h1; exact absurd rfl (h.att i p h1).2.2.2
    · rw [set_other _ _ ei] at h1; rw [set_other _ _ ej] at h2; exact h.inj i j q h1 h2
  · intro q hq; cases hq
  · intro q hq
    rcases h.cover q hq with hc | hc | ⟨i, hc⟩
    · exact .inl hc
    · cases hc; exact .inr (.inr ⟨id, by rw [set_same, hb]⟩)
    · refine .inr (.inr ⟨i, ?_⟩)
      have : i ≠ id := by rintro rfl; rw [hi] at hc; cases hc
      rw [set_other _ _ this]; exact hc
  · intro i; by_cases e : i = id
    · subst e; rw [set_same, hb]; simp
    · rw [set_other _ _ e]; exact h.dirtyInt i
  · intro i; by_cases e : i = id
    · subst e; rw [set_same, hb]; simp
    · rw [set_other _ _ e]; exact h.refsInt i
  · intro i j e; rw [ext_eq, ext_eq]; exact h.extOwn i j e
  · intro i e; rw [ext_eq]; exact h.extLive i e

/-- A block not touched. -/
theorem ok_frame {dflt : D} {s s' : St D} {a a' : Abs D} {i : Nat} (h : Ok dflt s a i) (hb : s'.blocks i = s.blocks i)
    (hm : ∀ p, (s.blocks i).int = some p → s'.mem p = s.mem p) (hd : ∀ e, (s.blocks i).ext = some e → s'.disk e = s.disk e)
    (h1 : a'.data i = a.data i) (h2 : a'.refs i = a.refs i) (h3 : a'.work i = a.work i) (h4 : a'.changed i = a.changed i) : Ok dflt s' a' i := by
  have hext : (s.blocks i).ext.map s'.disk = (s.blocks i).ext.map s.disk := by
    cases hx : (s.blocks i).ext with
    | none => rfl
    | some e => simp [hd e hx]
  constructor
  · rw [hb, h2]; exact h.refs
  · intro p; rw [hb, h1]; intro g1 g2; rw [hm p g2]; exact h.idleIn p g1 g2
  · rw [hb, h1, hext]; exact h.idleOut
  · intro p; rw [hb, h1, h3, h4, hext]; intro g1 g2; rw [hm p g2]; exact h.used p g1 g2

/-- A call does what the client expects. -/
def Good (E : Env D) (dflt : D) (s : St D) (a : Abs D) (op : Op D) : Prop :=
  ∃ r s', step E s op = some (r, s') ∧ Expected dflt a op r ∧ Inv dflt s' (a.next op r)

@[simp] theorem upd_same {α : Type} (f : Nat → α) (i : Nat) (x : α) : upd f i x i = x := by simp [upd]
theorem upd_other {α : Type} (f : Nat → α) {i j : Nat} (x : α) (h : j ≠ i) : upd f i x j = f j := by simp [upd, h]

theorem acquire_internal (E : Env D) {dflt : D} {s : St D} {a : Abs D} (h : Inv dflt s a) (id : Nat) (u : Bool) (hid : id < s.n) (p : Nat)
    (hp : (s.blocks id).int = some p) : Good E dflt s a (.acquire id u) := by
  have hok := h.ok id
  have hr := hok.refs
  by_cases hacq : 0 < (s.blocks id).refs
  · have hu := hok.used p hacq hp
    refine ⟨.data (s.mem p), s.set id { s.blocks id with refs := (s.blocks id).refs + 1 }, ?_, ?_, ?_⟩
    · simp [step, acquire, Nat.not_le.2 hid, hp, SB.isAcquired, hacq]
    · simp only [Expected, hr, hacq, if_true]
      exact ⟨_, hu.1, rfl⟩
    · simp only [Abs.next, hr, hacq, if_true]
      refine ⟨core_flags h.core id _ rfl rfl (h.core.dirtyInt id) (fun _ => by simp [hp]), ⟨h.ev.nd, fun i => ?_, fun i => ?_⟩, fun i => ?_, h.held⟩
      · by_cases e : i = id
        · subst e
          rw [set_same, set_evict, h.ev.mem i]
          simp; omega
        · rw [set_other _ _ e]; exact h.ev.mem i
      · by_cases e : i = id
        · subst e
          rw [set_same]; simp
        · rw [set_other _ _ e]; exact h.ev.valid i
      · by_cases e : i = id
        · subst e
          constructor <;> simp [hr]
          intro q hq
          rw [hp] at hq; cases hq
          exact hu
        · exact ok_frame (h.ok i) (set_other _ _ e) (fun _ _ => rfl) (fun _ _ => rfl) rfl (upd_other _ _ e) rfl rfl
  · have h0 : (s.blocks id).refs = 0 := by omega
    have hin := hok.idleIn p h0 hp
    refine ⟨.data (s.mem p), ({ s with evict := eraseEvict s.evict id }).set id { s.blocks id with refs := (s.blocks id).refs + 1 }, ?_, ?_, ?_⟩
    · simp [step, acquire, Nat.not_le.2 hid, hp, SB.isAcquired, hacq]
    · simp only [Expected, hr, hacq, if_false]
      cases u
      · simp [hin]
      · simp
    · simp only [Abs.next, hr, hacq, if_false]
      refine ⟨core_flags (h.core.evict s.mode _) id _ rfl rfl (h.core.dirtyInt id) (fun _ => by simp [hp]), ⟨erase_nodup id h.ev.nd, fun i => ?_, fun i => ?_⟩, fun i => ?_, h.held⟩
      · rw [set_evict, erase_ids]
        by_cases e : i = id
        · subst e
          simp [set_same]
        · rw [set_other _ _ e, h.ev.mem i]; simp [e]
      · by_cases e : i = id
        · subst e
          rw [set_same]; simp
        · rw [set_other _ _ e]; exact h.ev.valid i
      · by_cases e : i = id
        · subst e
          constructor <;> simp [hr]
          · omega
          · intro q hq
            rw [hp] at hq; cases hq
            refine ⟨rfl, fun _ => ⟨?_, by simp [hin]⟩⟩
            cases hd : (s.blocks i).dirty with
            | true => simp [hin]
            | false => simp [hok.idleOut h0 hd]
        · exact ok_frame (h.ok i) (set_other _ _ e) (fun _ _ => rfl) (fun _ _ => rfl) rfl (upd_other _ _ e) (upd_other _ _ e) (upd_other _ _ e)

theorem acquire_external (E : Env D) {dflt : D} (hE : ∀ l, E.pick l ∉ l) (hf : ∀ d, E.fill d = dflt) {s : St D} {a : Abs D} (h : Inv dflt s a) (id : Nat)
    (u : Bool) (hid : id < s.n) (hp : (s.blocks id).int = none) :
    (step E s (.acquire id u) = none ∧ s.free = [] ∧ s.remaining = 0 ∧ s.evict = []) ∨ Good E dflt s a (.acquire id u) := by
  rcases getFree_spec E hE h.core h.ev with ⟨g, g1, g2, g3⟩ | ⟨p, s1, g, c1, e1, v1, _⟩
  · exact .inl ⟨by simp [step, acquire, Nat.not_le.2 hid, hp, g], g1, g2, g3⟩
  · right
    have hb1 : s1.blocks id = s.blocks id ∧ ∀ e, (s.blocks id).ext = some e → s1.disk e = s.disk e := by
      rcases v1.same id with h1 | ⟨q, h1, _⟩
      · exact h1
      · rw [hp] at h1; cases h1
    have hr0 : (s.blocks id).refs = 0 := by
      rcases Nat.eq_zero_or_pos (s.blocks id).refs with h1 | h1
      · exact h1
      · exact absurd hp (h.core.refsInt id h1)
    have hd0 : (s.blocks id).dirty = false := by
      cases hd : (s.blocks id).dirty with
      | false => rfl
      | true => exact absurd hp (h.core.dirtyInt id hd)
    have hok1 := Ok.evicted h.ok v1
    have hok := hok1 id
    have hout := hok.idleOut (by rw [hb1.1]; exact hr0) (by rw [hb1.1]; exact hd0)
    rw [hb1.1] at hout
    have hr : a.refs id = 0 := by rw [(h.ok id).refs, hr0]
    have hp1 : (s1.blocks id).int = none := by rw [hb1.1, hp]
    refine ⟨.data ((bringIn E s1 id u p).mem p), bringIn E s1 id u p, ?_, ?_, ?_⟩
    · simp [step, acquire, Nat.not_le.2 hid, hp, g]
    · simp only [Expected, hr, Nat.lt_irrefl, if_false]
      cases u with
      | true => exact ⟨_, rfl⟩
      | false =>
        simp only [Bool.false_eq_true, if_false, bringIn, if_true, hb1.1, hout, hf, SB.isInitialized, SB.isInternal, SB.isExternal, hp, hd0]
        cases (s.blocks id).ext <;> simp
    · have hdirty : (bringIn E s1 id u p).blocks id = { s.blocks id with int := some p, refs := 1, dirty := false } := by
        simp only [bringIn, hb1.1, hd0, hr0, ite_self]
        simp [St.set]
      have hoth : ∀ i, i ≠ id → (bringIn E s1 id u p).blocks i = s1.blocks i := fun i hi => by simp [bringIn, St.set, hi]
      have hmem : ∀ q, q ≠ p → (bringIn E s1 id u p).mem q = s1.mem q := fun q hq => by simp [bringIn, hq]
      have hev : (bringIn E s1 id u p).evict = s1.evict := rfl
      have hds : (bringIn E s1 id u p).disk = s1.disk := rfl
      simp only [Abs.next, hr, Nat.lt_irrefl, if_false]
      refine ⟨?_, ⟨by rw [hev]; exact e1.nd, fun i => ?_, fun i => ?_⟩, fun i => ?_, ?_⟩
      · refine (core_attach c1 id (by rw [v1.n]; exact hid) { s.blocks id with int := some p, refs := 1, dirty := false } hp1 rfl (by rw [hb1.1])).congr rfl rfl rfl rfl rfl ?_ rfl
        funext i
        by_cases e : i = id
        · subst e; rw [hdirty, set_same]
        · rw [hoth i e, set_other _ _ e]
      · rw [hev]
        by_cases e : i = id
        · subst e
          rw [hdirty, e1.mem i, hp1]; simp
        · rw [hoth i e]; exact e1.mem i
      · by_cases e : i = id
        · subst e; rw [hdirty]; simp
        · rw [hoth i e]; exact e1.valid i
      · by_cases e : i = id
        · subst e
          constructor
          · rw [hdirty]; simp
          · rw [hdirty]; simp
          · rw [hdirty]; simp
          · intro q _ hq
            rw [hdirty] at hq ⊢
            cases hq
            refine ⟨by simp, fun hc => ⟨?_, ?_⟩⟩
            · simp [hds, hout]
            · simp only [upd_same] at hc
              subst hc
              simp only [Bool.false_eq_true, if_false, bringIn, if_true, hb1.1, hout, hf, SB.isInitialized, SB.isInternal, SB.isExternal, hp, hd0]
              cases (s.blocks i).ext <;> simp
        · refine ok_frame (hok1 i) (hoth i e) (fun q hq => hmem q ?_) (fun _ _ => rfl) rfl (upd_other _ _ e) (upd_other _ _ e) (upd_other _ _ e)
          rintro rfl
          exact (c1.att i q hq).2.2.2 rfl
      · have := h.held.evicted v1
        exact this

theorem write_good (E : Env D) {dflt : D} {s : St D} {a : Abs D} (h : Inv dflt s a) (id : Nat) (d : D) (hid : id < s.n) (ha : 0 < a.refs id) :
    Good E dflt s a (.write id d) := by
  have hr : 0 < (s.blocks id).refs := by rw [← (h.ok id).refs]; exact ha
  obtain ⟨p, hp⟩ := Option.ne_none_iff_exists'.1 (h.core.refsInt id hr)
  refine ⟨.unit, { s with mem := fun j => if j = p then d else s.mem j }, ?_, rfl, ?_⟩
  · simp [step, write, Nat.not_le.2 hid, SB.isAcquired, hr, hp]
  · refine ⟨h.core.congr rfl rfl rfl rfl rfl rfl rfl, h.ev.congr rfl rfl, fun i => ?_, h.held⟩
    by_cases e : i = id
    · subst e
      constructor
      · exact (h.ok i).refs
      · intro q hq; simp only at hq; omega
      · intro hq; simp only at hq; omega
      · intro q _ hq
        simp only at hq
        rw [hp] at hq; cases hq
        refine ⟨by simp [Abs.next], fun hc => by simp [Abs.next] at hc⟩
    · refine ok_frame (h.ok i) rfl (fun q hq => ?_) (fun _ _ => rfl) rfl rfl (upd_other _ _ e) (upd_other _ _ e)
      have : q ≠ p := by rintro rfl; exact e (h.core.inj i id q hq hp)
      simp [this]

theorem giveBack_ev {s : St D} (h : Ev s) (p : Nat) : Ev (giveBack s p) := ⟨h.nd, h.mem, h.valid⟩

theorem giveBack_evicted {s t : St D} (h : Evicted s t) (p : Nat) : Evicted s (giveBack t p) := h.congr rfl rfl rfl rfl rfl

theorem release_good (E : Env D) {dflt : D} (hE : ∀ l, E.pick l ∉ l) {s : St D} {a : Abs D} (h : Inv dflt s a) (id : Nat) (dirty : Bool) (pr : SB → Nat)
    (hid : id < s.n) (ha : Allowed a (.release id dirty pr)) : Good E dflt s a (.release id dirty pr) := by
  obtain ⟨ha1, ha2⟩ := ha
  have hrefs := (h.ok id).refs
  have hr : 0 < (s.blocks id).refs := by rw [← hrefs]; exact ha1
  obtain ⟨p, hp⟩ := Option.ne_none_iff_exists'.1 (h.core.refsInt id hr)
  have hu := (h.ok id).used p hr hp
  have hnext : ∀ i, i ≠ id → ((a.next (.release id dirty pr) .unit).data i = a.data i ∧ (a.next (.release id dirty pr) .unit).refs i = a.refs i ∧
      (a.next (.release id dirty pr) .unit).work i = a.work i ∧ (a.next (.release id dirty pr) .unit).changed i = a.changed i) := by
    intro i hi
    cases dirty <;> simp [Abs.next, upd_other _ _ hi]
  have hn1 : (a.next (.release id dirty pr) .unit).refs id = (s.blocks id).refs - 1 := by cases dirty <;> simp [Abs.next, hrefs]
  have hn2 : (a.next (.release id dirty pr) .unit).work id = some (s.mem p) := by cases dirty <;> simp [Abs.next, hu.1]
  have hn3 : (a.next (.release id dirty pr) .unit).changed id = (if dirty then false else a.changed id) := by cases dirty <;> simp [Abs.next]
  have hn4 : (a.next (.release id dirty pr) .unit).data id = (if dirty then some (s.mem p) else a.data id) := by cases dirty <;> simp [Abs.next, hu.1]
  have hheld : ∀ t : St D, t.held = s.held → t.disk = s.disk → HeldOk t (a.next (.release id dirty pr) .unit) := by
    intro t h1 h2 e
    have : (a.next (.release id dirty pr) .unit).held = a.held := by cases dirty <;> rfl
    rw [this, h1, h2]; exact h.held e
  suffices hg : ∃ s', releaseWith E s id dirty pr = some s' ∧ Inv dflt s' (a.next (.release id dirty pr) .unit) by
    obtain ⟨s', g1, g2⟩ := hg
    exact ⟨.unit, s', by simp [step, g1], rfl, g2⟩
  generalize a.next (.release id dirty pr) .unit = a' at hnext hn1 hn2 hn3 hn4 hheld
  have hb : (s.blocks id).isAcquired = true := by simp [SB.isAcquired, hr]
  have hc1 : Core (s.set id { s.blocks id with dirty := dirty || (s.blocks id).dirty, refs := (s.blocks id).refs - 1 }) none :=
    core_flags h.core id _ rfl rfl (fun _ => by simp [hp]) (fun _ => by simp [hp])
  by_cases hlast : 0 < (s.blocks id).refs - 1
  · refine ⟨s.set id { s.blocks id with dirty := dirty || (s.blocks id).dirty, refs := (s.blocks id).refs - 1 }, ?_, ?_⟩
    · simp [releaseWith, Nat.not_le.2 hid, hb]
      simp [SB.isAcquired, hlast]
    · refine ⟨hc1, ⟨h.ev.nd, fun i => ?_, fun i => ?_⟩, fun i => ?_, hheld _ rfl rfl⟩
      · by_cases e : i = id
        · subst e
          rw [set_same, set_evict, h.ev.mem i]
          simp only; omega
        · rw [set_other _ _ e]; exact h.ev.mem i
      · by_cases e : i = id
        · subst e
          rw [set_same]; simp only; omega
        · rw [set_other _ _ e]; exact h.ev.valid i
      · by_cases e : i = id
        · subst e
          constructor
          · rw [set_same]; exact hn1
          · rw [set_same]; simp only; omega
          · rw [set_same]; simp only; omega
          · rw [set_same]
            intro q _ hq
            simp only at hq
            rw [hp] at hq; cases hq
            refine ⟨hn2, fun hc => ?_⟩
            rw [hn3] at hc
            rw [hn4]
            cases dirty with
            | true => simp
            | false => simpa using hu.2 hc
        · obtain ⟨n1, n2, n3, n4⟩ := hnext i e
          exact ok_frame (h.ok i) (set_other _ _ e) (fun _ _ => rfl) (fun _ _ => rfl) n1 n2 n3 n4
  · have h1 : (s.blocks id).refs = 1 := by omega
    have hch : dirty = false → a.changed id = false := by
      intro hd
      cases hc : a.changed id with
      | false => rfl
      | true => have := ha2 (by rw [hrefs]; exact h1) hc; rw [hd] at this; cases this
    have hna : (({ s.blocks id with dirty := dirty || (s.blocks id).dirty, refs := (s.blocks id).refs - 1 } : SB)).isAcquired = false := by
      simp [SB.isAcquired, h1]
    by_cases hk : (dirty || (s.blocks id).dirty) = true ∨ (s.blocks id).ext ≠ none
    · refine ⟨{ s.set id { s.blocks id with dirty := dirty || (s.blocks id).dirty, refs := (s.blocks id).refs - 1 } with evict := insertEvict s.evict (pr { s.blocks id with dirty := dirty || (s.blocks id).dirty, refs := (s.blocks id).refs - 1 }) id }, ?_, ?_⟩
      · have hcond : (({ s.blocks id with dirty := dirty || (s.blocks id).dirty, refs := (s.blocks id).refs - 1 } : SB).dirty || ({ s.blocks id with dirty := dirty || (s.blocks id).dirty, refs := (s.blocks id).refs - 1 } : SB).isExternal) = true := by
          rcases hk with hk | hk
          · simp only [hk, Bool.true_or]
          · cases he : (s.blocks id).ext with
            | none => exact absurd he hk
            | some e => simp only [SB.isExternal, he]; cases (dirty || (s.blocks id).dirty) <;> rfl
        simp only [releaseWith, Nat.not_le.2 hid, if_false, hb, if_true, hna, Bool.false_eq_true, hcond]
        rfl
      · refine ⟨hc1.evict s.mode _, ⟨insert_nodup _ id h.ev.nd, fun i => ?_, fun i => ?_⟩, fun i => ?_, hheld _ rfl rfl⟩
        · rw [insert_ids]
          by_cases e : i = id
          · subst e
            simp [h1, hp]
          · show _ ↔ ((s.set id _).blocks i).int ≠ none ∧ ((s.set id _).blocks i).refs = 0
            rw [set_other _ _ e, ← h.ev.mem i]
            simp [e]
        · by_cases e : i = id
          · subst e
            intro _ _
            show ((s.set i _).blocks i).dirty = true ∨ ((s.set i _).blocks i).ext ≠ none
            rw [set_same]; exact hk
          · show ((s.set id _).blocks i).int ≠ none → ((s.set id _).blocks i).refs = 0 → ((s.set id _).blocks i).dirty = true ∨ ((s.set id _).blocks i).ext ≠ none
            rw [set_other _ _ e]; exact h.ev.valid i
        · by_cases e : i = id
          · subst e
            have hbl : ∀ (l : List (Nat × Nat)) (b : SB), ({ s.set i b with evict := l }).blocks i = b := by intro l b; simp [St.set]
            constructor
            · rw [hbl]; exact hn1
            · rw [hbl]
              intro q _ hq
              simp only at hq
              rw [hp] at hq; cases hq
              rw [hn4]
              cases dirty with
              | true => rfl
              | false =>
                obtain ⟨k1, k2⟩ := hu.2 (hch rfl)
                simp only [Bool.false_eq_true, if_false]
                show a.data i = some (s.mem p)
                simp only [Bool.false_or] at hk
                cases hd : (s.blocks i).dirty with
                | true => rw [k1, hd]; rfl
                | false =>
                  rw [hd] at k1 hk
                  simp only [Bool.false_eq_true, if_false, false_or] at k1 hk
                  obtain ⟨e, he⟩ := Option.ne_none_iff_exists'.1 hk
                  rw [he] at k1
                  simp only [Option.map_some] at k1
                  rw [k2, k1]; rfl
            · rw [hbl]
              intro _ hd
              simp only [Bool.or_eq_false_iff] at hd
              obtain ⟨hd1, hd2⟩ := hd
              rw [hn4, hd1]
              obtain ⟨k1, k2⟩ := hu.2 (hch hd1)
              rw [hd2] at k1
              exact k1
            · rw [hbl]; simp only; omega
          · obtain ⟨n1, n2, n3, n4⟩ := hnext i e
            exact ok_frame (h.ok i) (by simp [St.set, e]) (fun _ _ => rfl) (fun _ _ => rfl) n1 n2 n3 n4
    · simp only [not_or, Bool.not_eq_true, Bool.or_eq_false_iff, ne_eq, Classical.not_not] at hk
      obtain ⟨⟨hd1, hd2⟩, hx⟩ := hk
      subst hd1
      have hcond : (({ s.blocks id with dirty := false || (s.blocks id).dirty, refs := (s.blocks id).refs - 1 } : SB).dirty || ({ s.blocks id with dirty := false || (s.blocks id).dirty, refs := (s.blocks id).refs - 1 } : SB).isExternal) = false := by
        simp [SB.isExternal, hx, hd2]
      obtain ⟨s2, g1, g2⟩ := detach_ok E hE (s.set id { s.blocks id with dirty := false || (s.blocks id).dirty, refs := (s.blocks id).refs - 1 }) id p (by simp [hp]) (by simp [h1])
      have hdn : ((s.set id { s.blocks id with dirty := false || (s.blocks id).dirty, refs := (s.blocks id).refs - 1 }).blocks id).dirty = false := by simp [hd2]
      obtain ⟨x1, x2⟩ := g2.ext' hdn
      rw [set_same] at x1
      simp only [set_disk] at x2
      obtain ⟨r1, r2, r3, r4, r5, r6, r7, r8, r9, r10⟩ := g2.rest
      refine ⟨giveBack s2 p, ?_, ?_⟩
      · simp only [releaseWith, Nat.not_le.2 hid, if_false, hb, if_true, hna, Bool.false_eq_true, hcond, g1]
        rfl
      · refine ⟨giveBack_core (detached_core hc1 g2), giveBack_ev ⟨by rw [r6]; exact h.ev.nd, fun i => ?_, fun i => ?_⟩ p, fun i => ?_, hheld _ r8 x2⟩
        · rw [r6, set_evict, h.ev.mem i]
          by_cases e : i = id
          · subst e
            rw [g2.int', h1]; simp
          · rw [g2.other i e, set_other _ _ e]
        · by_cases e : i = id
          · subst e
            rw [g2.int']; simp
          · rw [g2.other i e, set_other _ _ e]; exact h.ev.valid i
        · by_cases e : i = id
          · subst e
            constructor
            · show _ = (s2.blocks i).refs
              rw [g2.refs', hn1, h1]
            · intro q _ hq
              rw [show ((giveBack s2 p).blocks i).int = (s2.blocks i).int from rfl, g2.int'] at hq; cases hq
            · intro _ _
              show _ = (s2.blocks i).ext.map s2.disk
              obtain ⟨k1, k2⟩ := hu.2 (hch rfl)
              rw [x1, x2, hn4]
              rw [hd2] at k1
              exact k1
            · intro q hq
              rw [show ((giveBack s2 p).blocks i).refs = (s2.blocks i).refs from rfl, g2.refs'] at hq; omega
          · obtain ⟨n1, n2, n3, n4⟩ := hnext i e
            exact ok_frame (h.ok i) ((g2.other i e).trans (set_other _ _ e)) (fun q _ => congrFun r7 q) (fun q _ => congrFun x2 q) n1 n2 n3 n4

/-- A block loses its data: what is left is accounted for. -/
theorem deinit_inv (E : Env D) {dflt : D} {s : St D} {a : Abs D} (h : Inv dflt s a) (id : Nat) (hid : id < s.n) (ha : a.refs id = 0) :
    ∃ s', deinit s id = some s' ∧ Inv dflt s' { a with data := upd a.data id none } := by
  have hr : (s.blocks id).refs = 0 := by rw [← (h.ok id).refs]; exact ha
  have hna : (s.blocks id).isAcquired = false := by simp [SB.isAcquired, hr]
  have hoks : ∀ t : St D, t.blocks = (s.set id {}).blocks → t.mem = s.mem → t.disk = s.disk → ∀ i, Ok dflt t { a with data := upd a.data id none } i := by
    intro t hb hm hd i
    by_cases e : i = id
    · subst e
      constructor
      · rw [hb, set_same]; exact ha
      · rw [hb, set_same]; intro q _ hq; cases hq
      · rw [hb, set_same]; simp
      · rw [hb, set_same]; intro q hq; simp at hq
    · exact ok_frame (h.ok i) (by rw [hb, set_other _ _ e]) (fun q _ => congrFun hm q) (fun q _ => congrFun hd q) (upd_other _ _ e) rfl rfl rfl
  cases hp : (s.blocks id).int with
  | none =>
    refine ⟨s.set id {}, ?_, ?_, ⟨h.ev.nd, fun i => ?_, fun i => ?_⟩, hoks _ rfl rfl rfl, h.held⟩
    · simp only [deinit, Nat.not_le.2 hid, if_false, hna, SB.isEvictable, SB.isInternal, hp, Bool.false_eq_true]
      rfl
    · have hext : ∀ j e, ((s.set id {}).blocks j).ext = some e → j ≠ id ∧ (s.blocks j).ext = some e := by
        intro j e hj
        by_cases e' : j = id
        · subst e'; rw [set_same] at hj; cases hj
        · rw [set_other _ _ e'] at hj; exact ⟨e', hj⟩
      have hint : ∀ j, ((s.set id {}).blocks j).int = (s.blocks j).int := by
        intro j
        by_cases e' : j = id
        · subst e'; rw [set_same, hp]
        · rw [set_other _ _ e']
      have c := h.core
      constructor
      · exact c.total
      · exact c.freeNd
      · exact c.freeLt
      · intro i p; rw [hint]; exact c.att i p
      · intro i j p; rw [hint, hint]; exact c.inj i j p
      · exact c.handOk
      · intro p hp'; simp only [hint]; exact c.cover p hp'
      · intro i; by_cases e : i = id
        · subst e; rw [set_same]; simp
        · rw [set_other _ _ e]; exact c.dirtyInt i
      · intro i; by_cases e : i = id
        · subst e; rw [set_same]; simp
        · rw [set_other _ _ e]; exact c.refsInt i
      · intro i j e h1 h2; exact c.extOwn i j e (hext i e h1).2 (hext j e h2).2
      · intro i e h1; exact c.extLive i e (hext i e h1).2
    · by_cases e : i = id
      · subst e; rw [set_same, set_evict, h.ev.mem i, hp]; simp
      · rw [set_other _ _ e]; exact h.ev.mem i
    · by_cases e : i = id
      · subst e; rw [set_same]; simp
      · rw [set_other _ _ e]; exact h.ev.valid i
  | some p =>
    have hint : ∀ j q, ((s.set id {}).blocks j).int = some q → j ≠ id ∧ (s.blocks j).int = some q := by
      intro j e hj
      by_cases e' : j = id
      · subst e'; rw [set_same] at hj; cases hj
      · rw [set_other _ _ e'] at hj; exact ⟨e', hj⟩
    have hext : ∀ j e, ((s.set id {}).blocks j).ext = some e → j ≠ id ∧ (s.blocks j).ext = some e := by
      intro j e hj
      by_cases e' : j = id
      · subst e'; rw [set_same] at hj; cases hj
      · rw [set_other _ _ e'] at hj; exact ⟨e', hj⟩
    refine ⟨giveBack (({ s with evict := eraseEvict s.evict id }).set id {}) p, ?_, giveBack_core ?_, giveBack_ev ⟨erase_nodup id h.ev.nd, fun i => ?_, fun i => ?_⟩ p, hoks _ rfl rfl rfl, ?_⟩
    · simp only [deinit, Nat.not_le.2 hid, if_false, hna, SB.isEvictable, SB.isInternal, hp, Bool.false_eq_true]
      rfl
    · have c := h.core
      have ca := c.att id p hp
      constructor
      · exact c.total
      · exact c.freeNd
      · exact c.freeLt
      · intro i q hq
        obtain ⟨x1, x2⟩ := hint i q hq
        have := c.att i q x2
        refine ⟨this.1, this.2.1, this.2.2.1, fun hc => ?_⟩
        cases hc
        exact x1 (c.inj i id p x2 hp)
      · intro i j q h1 h2; exact c.inj i j q (hint i q h1).2 (hint j q h2).2
      · intro q hq; cases hq; exact ⟨ca.2.1, ca.2.2.1⟩
      · intro q hq
        rcases c.cover q hq with hc | hc | ⟨i, hc⟩
        · exact .inl hc
        · cases hc
        · by_cases e : i = id
          · subst e; rw [hp] at hc; cases hc; exact .inr (.inl rfl)
          · exact .inr (.inr ⟨i, by rw [set_other _ _ e]; exact hc⟩)
      · intro i; by_cases e : i = id
        · subst e; rw [set_same]; simp
        · rw [set_other _ _ e]; exact c.dirtyInt i
      · intro i; by_cases e : i = id
        · subst e; rw [set_same]; simp
        · rw [set_other _ _ e]; exact c.refsInt i
      · intro i j e h1 h2; exact c.extOwn i j e (hext i e h1).2 (hext j e h2).2
      · intro i e h1; exact c.extLive i e (hext i e h1).2
    · rw [set_evict, erase_ids]
      by_cases e : i = id
      · subst e; rw [set_same]; simp
      · rw [set_other _ _ e, h.ev.mem i]; simp [e]
    · by_cases e : i = id
      · subst e; rw [set_same]; simp
      · rw [set_other _ _ e]; exact h.ev.valid i
    · exact h.held

theorem deinit_good (E : Env D) {dflt : D} {s : St D} {a : Abs D} (h : Inv dflt s a) (id : Nat) (hid : id < s.n) (ha : a.refs id = 0) :
    Good E dflt s a (.deinit id) := by
  obtain ⟨s', h1, h2⟩ := deinit_inv E h id hid ha
  exact ⟨.unit, s', by simp [step, h1], rfl, h2⟩

theorem free_good (E : Env D) {dflt : D} {s : St D} {a : Abs D} (h : Inv dflt s a) (id : Nat) (hid : id < s.n) (ha : a.refs id = 0) :
    Good E dflt s a (.free id) := by
  obtain ⟨s', h1, h2⟩ := deinit_inv E h id hid ha
  refine ⟨.unit, { s' with freeIds := id :: s'.freeIds }, by simp [step, freeBlock, h1], rfl, ?_⟩
  exact ⟨h2.core.congr rfl rfl rfl rfl rfl rfl rfl, h2.ev.congr rfl rfl, fun i => ok_frame (h2.ok i) rfl (fun _ _ => rfl) (fun _ _ => rfl) rfl rfl rfl rfl, h2.held⟩

/-- A block without data that is not acquired is empty. -/
theorem no_data {dflt : D} {s : St D} {a : Abs D} (h : Inv dflt s a) {id : Nat} (ha : a.refs id = 0) (hd : a.data id = none) : s.blocks id = {} := by
  have hr : (s.blocks id).refs = 0 := by rw [← (h.ok id).refs]; exact ha
  have hi : (s.blocks id).int = none := by
    cases hp : (s.blocks id).int with
    | none => rfl
    | some p => rw [(h.ok id).idleIn p hr hp] at hd; cases hd
  have hdy : (s.blocks id).dirty = false := by
    cases hp : (s.blocks id).dirty with
    | false => rfl
    | true => exact absurd hi (h.core.dirtyInt id hp)
  have he : (s.blocks id).ext = none := by
    rw [(h.ok id).idleOut hr hdy] at hd
    cases hx : (s.blocks id).ext with
    | none => rfl
    | some e => rw [hx] at hd; cases hd
  generalize s.blocks id = b at *
  cases b
  simp_all

theorem init_good (E : Env D) {dflt : D} {s : St D} {a : Abs D} (h : Inv dflt s a) (id : Nat) (e : Option Nat) (hid : id < s.n)
    (ha : Allowed a (.init id e)) : Good E dflt s a (.init id e) := by
  obtain ⟨ha1, ha2, ha3⟩ := ha
  have hb := no_data h ha1 ha2
  have c := h.core
  refine ⟨.unit, { (s.set id { ext := e }) with held := s.held.filter (fun x => some x != e) }, ?_, rfl, ?_⟩
  · simp [step, initialize_, Nat.not_le.2 hid, hb, SB.isInitialized, SB.isInternal, SB.isExternal]
  have hint : ∀ j, ((s.set id { ext := e }).blocks j).int = (s.blocks j).int := by
    intro j
    by_cases e' : j = id
    · subst e'; rw [set_same, hb]
    · rw [set_other _ _ e']
  have hnl : ∀ x, e = some x → x ∈ s.held := fun x hx => (h.held x).1.1 (ha3 x hx)
  refine ⟨?_, ⟨h.ev.nd, fun i => ?_, fun i => ?_⟩, fun i => ?_, fun x => ⟨?_, fun d hd => ?_⟩⟩
  · constructor
    · exact c.total
    · exact c.freeNd
    · exact c.freeLt
    · intro i p hp; exact c.att i p (by rw [← hint i]; exact hp)
    · intro i j p h1 h2; exact c.inj i j p (by rw [← hint i]; exact h1) (by rw [← hint j]; exact h2)
    · exact c.handOk
    · intro p hp'
      rcases c.cover p hp' with h1 | h1 | ⟨i, h1⟩
      · exact .inl h1
      · exact .inr (.inl h1)
      · exact .inr (.inr ⟨i, (hint i).trans h1⟩)
    · intro i
      show ((s.set id { ext := e }).blocks i).dirty = true → ((s.set id { ext := e }).blocks i).int ≠ none
      by_cases e' : i = id
      · subst e'; rw [set_same]; simp
      · rw [set_other _ _ e']; exact c.dirtyInt i
    · intro i
      show 0 < ((s.set id { ext := e }).blocks i).refs → ((s.set id { ext := e }).blocks i).int ≠ none
      by_cases e' : i = id
      · subst e'; rw [set_same]; simp
      · rw [set_other _ _ e']; exact c.refsInt i
    · have key : ∀ j x, j ≠ id → (s.blocks j).ext = some x → e ≠ some x := fun j x hj h1 h2 => (c.extLive j x h1).2 (hnl x h2)
      intro i j x
      show ((s.set id { ext := e }).blocks i).ext = some x → ((s.set id { ext := e }).blocks j).ext = some x → i = j
      by_cases ei : i = id <;> by_cases ej : j = id
      · intros; rw [ei, ej]
      · subst ei; rw [set_same, set_other _ _ ej]; intro h1 h2; exact absurd h1 (key j x ej h2)
      · subst ej; rw [set_same, set_other _ _ ei]; intro h1 h2; exact absurd h2 (key i x ei h1)
      · rw [set_other _ _ ei, set_other _ _ ej]; exact c.extOwn i j x
    · intro i x
      show ((s.set id { ext := e }).blocks i).ext = some x → i < s.n ∧ x ∉ s.held.filter (fun x => some x != e)
      by_cases ei : i = id
      · subst ei
        rw [set_same]
        intro h1
        simp only at h1
        subst h1
        exact ⟨hid, by simp⟩
      · rw [set_other _ _ ei]
        intro h1
        exact ⟨(c.extLive i x h1).1, fun hm => (c.extLive i x h1).2 (List.mem_filter.1 hm).1⟩
  · show i ∈ s.evict.map (·.2) ↔ ((s.set id { ext := e }).blocks i).int ≠ none ∧ ((s.set id { ext := e }).blocks i).refs = 0
    by_cases e' : i = id
    · subst e'; rw [set_same, h.ev.mem i, hb]
    · rw [set_other _ _ e']; exact h.ev.mem i
  · show ((s.set id { ext := e }).blocks i).int ≠ none → ((s.set id { ext := e }).blocks i).refs = 0 → ((s.set id { ext := e }).blocks i).dirty = true ∨ ((s.set id { ext := e }).blocks i).ext ≠ none
    by_cases e' : i = id
    · subst e'; rw [set_same]; simp
    · rw [set_other _ _ e']; exact h.ev.valid i
  · by_cases e' : i = id
    · subst e'
      have hbl : ∀ (l : List Nat) (b : SB), ({ s.set i b with held := l }).blocks i = b := by intro l b; simp [St.set]
      constructor
      · rw [hbl]; cases e <;> exact ha1
      · rw [hbl]; intro q _ hq; cases hq
      · rw [hbl]
        intro _ _
        cases e with
        | none => exact ha2
        | some x =>
          simp only [Abs.next, upd_same, Option.map_some]
          cases hx : a.held x with
          | none => exact absurd hx (ha3 x rfl)
          | some d => exact congrArg some ((h.held x).2 d hx).symm
      · rw [hbl]; intro q hq; simp at hq
    · cases e with
      | none => exact ok_frame (h.ok i) (by simp [St.set, e']) (fun _ _ => rfl) (fun _ _ => rfl) rfl rfl rfl rfl
      | some x => exact ok_frame (h.ok i) (by simp [St.set, e']) (fun _ _ => rfl) (fun _ _ => rfl) (upd_other _ _ e') rfl rfl rfl
  · cases e with
    | none => simpa [Abs.next] using (h.held x).1
    | some y =>
      simp only [Abs.next, List.mem_filter]
      by_cases exy : x = y
      · subst exy; simp
      · rw [upd_other _ _ exy, (h.held x).1]; simp [exy]
  · cases e with
    | none => exact (h.held x).2 d hd
    | some y =>
      simp only [Abs.next] at hd
      by_cases exy : x = y
      · subst exy; simp at hd
      · rw [upd_other _ _ exy] at hd; exact (h.held x).2 d hd

/-- A block that is not acquired is put out. -/
theorem putOut_spec (E : Env D) (hE : ∀ l, E.pick l ∉ l) {s : St D} (h : Core s none) (he : Ev s) (id : Nat) (hr : (s.blocks id).refs = 0) :
    ∃ s1, putOut E s id = some s1 ∧ Core s1 none ∧ Ev s1 ∧ Evicted s s1 ∧ (s1.blocks id).int = none ∧ s1.evict = eraseEvict s.evict id := by
  cases hp : (s.blocks id).int with
  | none =>
    refine ⟨s, by simp [putOut, SB.isEvictable, SB.isInternal, hp], h, he, Evicted.refl s, hp, ?_⟩
    have : id ∉ s.evict.map (·.2) := by rw [he.mem id, hp]; simp
    symm
    refine List.filter_eq_self.2 fun x hx => ?_
    simp only [bne_iff_ne, ne_eq]
    rintro rfl
    exact this (List.mem_map.2 ⟨x, hx, rfl⟩)
  | some p =>
    obtain ⟨s2, g1, g2⟩ := detach_ok E hE { s with evict := eraseEvict s.evict id } id p hp hr
    have c2 := detached_core (h.evict s.mode _) g2
    have v2 : Evicted s s2 := (detached_evicted (h.evict s.mode _) g2).congrL rfl rfl rfl rfl rfl
    refine ⟨giveBack s2 p, ?_, giveBack_core c2, giveBack_ev ⟨?_, fun i => ?_, fun i => ?_⟩ p, giveBack_evicted v2 p, g2.int', g2.rest.2.2.2.2.2.1⟩
    · simp [putOut, SB.isEvictable, SB.isInternal, SB.isAcquired, hp, hr, g1]
    · rw [g2.rest.2.2.2.2.2.1]; exact erase_nodup id he.nd
    · rw [g2.rest.2.2.2.2.2.1, erase_ids]
      by_cases e : i = id
      · subst e; rw [g2.int']; simp
      · rw [g2.other i e]
        show _ ↔ (s.blocks i).int ≠ none ∧ (s.blocks i).refs = 0
        rw [← he.mem i]; simp [e]
    · by_cases e : i = id
      · subst e; rw [g2.int']; simp
      · rw [g2.other i e]; exact he.valid i

theorem extract_good (E : Env D) (hE : ∀ l, E.pick l ∉ l) {dflt : D} {s : St D} {a : Abs D} (h : Inv dflt s a) (id : Nat) (hid : id < s.n)
    (ha : a.refs id = 0) : Good E dflt s a (.extract id) := by
  have hr : (s.blocks id).refs = 0 := by rw [← (h.ok id).refs]; exact ha
  obtain ⟨s1, g1, c, ev, v, gi, ge⟩ := putOut_spec E hE h.core h.ev id hr
  have hok := Ok.evicted h.ok v
  have hheld := h.held.evicted v
  have hr1 : (s1.blocks id).refs = 0 := by rw [← (hok id).refs]; exact ha
  have hd1 : (s1.blocks id).dirty = false := by
    cases hp : (s1.blocks id).dirty with
    | false => rfl
    | true => exact absurd gi (c.dirtyInt id hp)
  have hout := (hok id).idleOut hr1 hd1
  refine ⟨.ext (s1.blocks id).ext, { (s1.set id { s1.blocks id with ext := none }) with held := (s1.blocks id).ext.toList ++ s1.held }, ?_, ?_, ?_⟩
  · simp [step, extract, Nat.not_le.2 hid, g1]
  · simp only [Expected, hout]
    cases hx : (s1.blocks id).ext with
    | none => rfl
    | some e =>
      simp only [Option.map_some, reduceCtorEq, if_false]
      refine ⟨e, rfl, ?_⟩
      cases hh : a.held e with
      | none => rfl
      | some d => exact absurd ((hheld e).1.1 (by rw [hh]; simp)) (c.extLive id e hx).2
  · have hbl : ∀ (l : List Nat) (b : SB), ({ s1.set id b with held := l }).blocks id = b := by intro l b; simp [St.set]
    have hblo : ∀ (l : List Nat) (b : SB) i, i ≠ id → ({ s1.set id b with held := l }).blocks i = s1.blocks i := by intro l b i hi; simp [St.set, hi]
    refine ⟨?_, ⟨ev.nd, fun i => ?_, fun i => ?_⟩, fun i => ?_, ?_⟩
    · have hint : ∀ j, (({ (s1.set id { s1.blocks id with ext := none }) with held := (s1.blocks id).ext.toList ++ s1.held }).blocks j).int = (s1.blocks j).int := by
        intro j
        by_cases e' : j = id
        · subst e'; rw [hbl]
        · rw [hblo _ _ _ e']
      constructor
      · exact c.total
      · exact c.freeNd
      · exact c.freeLt
      · intro i p hp; exact c.att i p (by rw [← hint i]; exact hp)
      · intro i j p h1 h2; exact c.inj i j p (by rw [← hint i]; exact h1) (by rw [← hint j]; exact h2)
      · exact c.handOk
      · intro p hp'
        rcases c.cover p hp' with h1 | h1 | ⟨i, h1⟩
        · exact .inl h1
        · exact .inr (.inl h1)
        · exact .inr (.inr ⟨i, (hint i).trans h1⟩)
      · intro i
        by_cases e' : i = id
        · subst e'; rw [hbl]; exact c.dirtyInt i
        · rw [hblo _ _ _ e']; exact c.dirtyInt i
      · intro i
        by_cases e' : i = id
        · subst e'; rw [hbl]; exact c.refsInt i
        · rw [hblo _ _ _ e']; exact c.refsInt i
      · intro i j x
        by_cases ei : i = id <;> by_cases ej : j = id
        · intros; rw [ei, ej]
        · subst ei; rw [hbl]; intro h1; cases h1
        · subst ej; rw [hbl]; intro _ h1; cases h1
        · rw [hblo _ _ _ ei, hblo _ _ _ ej]; exact c.extOwn i j x
      · intro i x
        by_cases ei : i = id
        · subst ei; rw [hbl]; intro h1; cases h1
        · rw [hblo _ _ _ ei]
          intro h1
          refine ⟨(c.extLive i x h1).1, fun hm => ?_⟩
          rcases List.mem_append.1 hm with hm | hm
          · exact ei (c.extOwn i id x h1 (Option.mem_toList.1 hm))
          · exact (c.extLive i x h1).2 hm
    · by_cases e' : i = id
      · subst e'; rw [hbl]; exact ev.mem i
      · rw [hblo _ _ _ e']; exact ev.mem i
    · by_cases e' : i = id
      · subst e'; rw [hbl]; intro hc; exact absurd gi hc
      · rw [hblo _ _ _ e']; exact ev.valid i
    · by_cases e' : i = id
      · subst e'
        constructor
        · rw [hbl, hr1]; cases (s1.blocks i).ext <;> exact ha
        · rw [hbl]; intro q _ hq; simp only at hq; rw [gi] at hq; cases hq
        · rw [hbl]; intro _ _
          cases hx : (s1.blocks i).ext with
          | none => rw [hx] at hout; exact hout
          | some e => simp [Abs.next]
        · rw [hbl]; intro q hq; simp only at hq; omega
      · cases hx : (s1.blocks id).ext with
        | none => exact ok_frame (hok i) (hblo _ _ _ e') (fun _ _ => rfl) (fun _ _ => rfl) rfl rfl rfl rfl
        | some e => exact ok_frame (hok i) (hblo _ _ _ e') (fun _ _ => rfl) (fun _ _ => rfl) (upd_other _ _ e') rfl rfl rfl
    · cases hx : (s1.blocks id).ext with
      | none => exact hheld
      | some e =>
        intro x
        rw [hx] at hout
        simp only [Abs.next, Option.toList_some, List.singleton_append, List.mem_cons]
        by_cases exy : x = e
        · subst exy
          rw [upd_same, hout]
          simp
        · rw [upd_other _ _ exy]
          simp only [exy, false_or]
          exact hheld x

theorem flushAux_spec (E : Env D) (hE : ∀ l, E.pick l ∉ l) (k : Nat) {s : St D} (h : Core s none) (he : Ev s) :
    ∃ s1, flushAux E k s = some s1 ∧ Core s1 none ∧ Ev s1 ∧ Evicted s s1 ∧ s1.evict.length = s.evict.length - k := by
  induction k generalizing s with
  | zero => exact ⟨s, rfl, h, he, Evicted.refl s, rfl⟩
  | succ k ih =>
    simp only [flushAux]
    cases hp : popEvict s.mode s.evict with
    | none => exact ⟨s, rfl, h, he, Evicted.refl s, by rw [pop_none hp]; simp⟩
    | some xr =>
      obtain ⟨x, rest⟩ := xr
      have hperm := pop_perm hp
      have hm := (he.mem x.2).1 ((hperm.map (·.2)).mem_iff.2 (by simp))
      obtain ⟨p, hi⟩ := Option.ne_none_iff_exists'.1 hm.1
      obtain ⟨s', h1, h2⟩ := detach_ok E hE { s with evict := rest } x.2 p hi hm.2
      obtain ⟨s1, g1, g2, g3, g4, g5⟩ := ih (giveBack_core (detached_core (h.evict s.mode rest) h2)) (giveBack_ev (detached_ev he hperm h2) p)
      refine ⟨s1, by simp only [h1, Option.bind_some]; exact g1, g2, g3, ?_, ?_⟩
      · have v2 : Evicted s s' := (detached_evicted (h.evict s.mode rest) h2).congrL rfl rfl rfl rfl rfl
        exact Evicted.trans (giveBack_evicted v2 p) g4
      · rw [g5, show (giveBack s' p).evict = rest from h2.rest.2.2.2.2.2.1, hperm.length_eq]
        simp

theorem flush_good (E : Env D) (hE : ∀ l, E.pick l ∉ l) {dflt : D} {s : St D} {a : Abs D} (h : Inv dflt s a) : Good E dflt s a .flush := by
  obtain ⟨s1, g1, g2, g3, g4, _⟩ := flushAux_spec E hE s.evict.length h.core h.ev
  exact ⟨.unit, s1, by simp [step, flush, g1], rfl, g2, g3, Ok.evicted h.ok g4, h.held.evicted g4⟩

theorem alloc_good (E : Env D) {dflt : D} {s : St D} {a : Abs D} (h : Inv dflt s a) : Good E dflt s a .alloc := by
  refine ⟨.id (alloc s).1, (alloc s).2, rfl, ⟨_, rfl⟩, ?_⟩
  have hnx : a.next .alloc (.id (alloc s).1) = a := rfl
  rw [hnx]
  unfold alloc
  cases hf : s.freeIds with
  | cons x rest =>
    exact ⟨h.core.congr rfl rfl rfl rfl rfl rfl rfl, h.ev.congr rfl rfl, fun i => ok_frame (h.ok i) rfl (fun _ _ => rfl) (fun _ _ => rfl) rfl rfl rfl rfl, h.held⟩
  | nil =>
    have c := h.core
    have hi : (s.blocks s.n).int = none := by
      cases hp : (s.blocks s.n).int with
      | none => rfl
      | some p => exact absurd (c.att _ p hp).1 (Nat.lt_irrefl _)
    have he : (s.blocks s.n).ext = none := by
      cases hp : (s.blocks s.n).ext with
      | none => rfl
      | some p => exact absurd (c.extLive _ p hp).1 (Nat.lt_irrefl _)
    have hb : s.blocks s.n = {} := by
      have h1 := c.dirtyInt s.n
      have h2 := c.refsInt s.n
      generalize s.blocks s.n = b at *
      cases b
      simp_all
    have hbl : (fun j => if j = s.n then ({} : SB) else s.blocks j) = s.blocks := by
      funext j; by_cases e : j = s.n
      · rw [if_pos e, e, hb]
      · rw [if_neg e]
    simp only [hbl]
    refine ⟨⟨c.total, c.freeNd, c.freeLt, fun i p hp => ?_, c.inj, c.handOk, c.cover, c.dirtyInt, c.refsInt, c.extOwn, fun i e hx => ?_⟩, h.ev.congr rfl rfl, fun i => ok_frame (h.ok i) rfl (fun _ _ => rfl) (fun _ _ => rfl) rfl rfl rfl rfl, h.held⟩
    · obtain ⟨x1, x2⟩ := c.att i p hp; exact ⟨Nat.lt_succ_of_lt x1, x2⟩
    · obtain ⟨x1, x2⟩ := c.extLive i e hx; exact ⟨Nat.lt_succ_of_lt x1, x2⟩

theorem client_good (E : Env D) (hE : ∀ l, E.pick l ∉ l) {dflt : D} {s : St D} {a : Abs D} (h : Inv dflt s a) (d : D) : Good E dflt s a (.client d) := by
  have hl := hE s.live
  have c := h.core
  have hfr : E.pick s.live ∉ s.held := fun hm => hl (List.mem_append.2 (.inr hm))
  refine ⟨.ext (some (E.pick s.live)), (clientBlock E s d).2, rfl, ⟨_, rfl, ?_⟩, ?_⟩
  · cases hh : a.held (E.pick s.live) with
    | none => rfl
    | some x => exact absurd ((h.held _).1.1 (by rw [hh]; simp)) hfr
  · have hdk : ∀ j, j ≠ E.pick s.live → (clientBlock E s d).2.disk j = s.disk j := fun j hj => by simp [clientBlock, hj]
    refine ⟨⟨c.total, c.freeNd, c.freeLt, c.att, c.inj, c.handOk, c.cover, c.dirtyInt, c.refsInt, c.extOwn, fun i e hx => ?_⟩, h.ev.congr rfl rfl, fun i => ?_, fun x => ?_⟩
    · obtain ⟨x1, x2⟩ := c.extLive i e hx
      refine ⟨x1, fun hm => ?_⟩
      rcases List.mem_cons.1 hm with rfl | hm
      · exact hl (mem_live c hx)
      · exact x2 hm
    · refine ok_frame (h.ok i) rfl (fun _ _ => rfl) (fun e hx => hdk e ?_) rfl rfl rfl rfl
      rintro rfl
      exact hl (mem_live c hx)
    · show (upd a.held (E.pick s.live) (some d) x ≠ none ↔ x ∈ E.pick s.live :: s.held) ∧ ∀ d', upd a.held (E.pick s.live) (some d) x = some d' → (clientBlock E s d).2.disk x = d'
      by_cases e : x = E.pick s.live
      · subst e; simp [clientBlock]
      · rw [upd_other _ _ e, hdk x e]
        simp only [List.mem_cons, e, false_or]
        exact h.held x

theorem retag_inv (E : Env D) {dflt : D} {s s' : St D} {r : Res D} {a : Abs D} (h : Inv dflt s a) (m : Mode) (l : List (Nat × Nat))
    (hs : step E s (.retag m l) = some (r, s')) : Expected dflt a (.retag m l) r ∧ Inv dflt s' (a.next (.retag m l) r) := by
  simp only [step] at hs
  split at hs
  · rename_i hp
    cases hs
    have hp := List.isPerm_iff.1 hp
    refine ⟨rfl, h.core.evict m l, ⟨hp.nodup_iff.2 h.ev.nd, fun i => ?_, h.ev.valid⟩, fun i => ok_frame (h.ok i) rfl (fun _ _ => rfl) (fun _ _ => rfl) rfl rfl rfl rfl, h.held⟩
    show i ∈ l.map (·.2) ↔ _
    rw [hp.mem_iff]; exact h.ev.mem i
  · cases hs

theorem step_lt {E : Env D} {s s' : St D} {r : Res D} {op : Op D} (h : step E s op = some (r, s')) (id : Nat) (hid : opId op = some id) : id < s.n := by
  cases op <;> simp only [opId, Option.some.injEq, reduceCtorEq] at hid <;> subst hid <;> apply Classical.byContradiction <;> intro hc <;>
    simp [step, acquire, write, releaseWith, deinit, initialize_, extract, freeBlock, Nat.not_lt.1 hc] at h

/-- Every allowed call other than `acquire` and `retag` on an allocated block works. -/
theorem good (E : Env D) (hE : ∀ l, E.pick l ∉ l) {dflt : D} {s : St D} {a : Abs D} (h : Inv dflt s a) (op : Op D) (ha : Allowed a op)
    (hid : ∀ id, opId op = some id → id < s.n) : (∃ id u, op = .acquire id u) ∨ (∃ m l, op = .retag m l) ∨ Good E dflt s a op := by
  cases op with
  | acquire id u => exact .inl ⟨id, u, rfl⟩
  | write id d => exact .inr (.inr (write_good E h id d (hid id rfl) ha))
  | release id dirty pr => exact .inr (.inr (release_good E hE h id dirty pr (hid id rfl) ha))
  | deinit id => exact .inr (.inr (deinit_good E h id (hid id rfl) ha))
  | init id e => exact .inr (.inr (init_good E h id e (hid id rfl) ha))
  | extract id => exact .inr (.inr (extract_good E hE h id (hid id rfl) ha))
  | flush => exact .inr (.inr (flush_good E hE h))
  | alloc => exact .inr (.inr (alloc_good E h))
  | free id => exact .inr (.inr (free_good E h id (hid id rfl) ha))
  | client d => exact .inr (.inr (client_good E hE h d))
  | retag m l => exact .inr (.inl ⟨m, l, rfl⟩)

theorem step_inv (E : Env D) (hE : ∀ l, E.pick l ∉ l) {dflt : D} (hf : ∀ d, E.fill d = dflt) {s s' : St D} {r : Res D} {a : Abs D} (h : Inv dflt s a)
    (op : Op D) (ha : Allowed a op) (hs : step E s op = some (r, s')) : Expected dflt a op r ∧ Inv dflt s' (a.next op r) := by
  have key : Good E dflt s a op → Expected dflt a op r ∧ Inv dflt s' (a.next op r) := by
    rintro ⟨r', t, h1, h2, h3⟩
    rw [h1] at hs; cases hs; exact ⟨h2, h3⟩
  rcases good E hE h op ha (step_lt hs) with ⟨id, u, rfl⟩ | ⟨m, l, rfl⟩ | hg
  · have hid := step_lt hs id rfl
    cases hp : (s.blocks id).int with
    | some p => exact key (acquire_internal E h id u hid p hp)
    | none =>
      rcases acquire_external E hE hf h id u hid hp with ⟨g, _⟩ | g
      · rw [g] at hs; cases hs
      · exact key g
  · exact retag_inv E h m l hs
  · exact key hg

theorem run_inv (E : Env D) (hE : ∀ l, E.pick l ∉ l) {dflt : D} (hf : ∀ d, E.fill d = dflt) {s : St D} {a : Abs D} (h : Run E s a) : Inv dflt s a := by
  induction h with
  | start memory size mem disk => exact init_inv dflt memory size mem disk
  | step op _ ha hs ih => exact (step_inv E hE hf ih op ha hs).2

end Foxxll.Swap
