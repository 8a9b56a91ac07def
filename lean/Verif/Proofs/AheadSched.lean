import Verif.Proofs.AheadReserve

set_option linter.unusedSimpArgs false
set_option linter.unusedVariables false
set_option linter.unusedSectionVars false

/-
offline_lru_prefetching: operations of the sequence are scheduled.
-/
namespace Foxxll.Ahead
open Foxxll.Swap (SB Env POp Elem Op Res Abs Allowed Expected)

variable {D : Type} [Slack D]

/-- The evictable blocks are attached and not acquired, and have data. -/
theorem Inv.ev_facts {dflt : D} {a : Abs D} {k : Ctx} {v : Swap.St D} {s : St D} (h : Inv dflt a k v s) {g : Nat} (hg : g ∈ s.freeEv ∨ g ∈ s.schedEv ∨ k.out = some g) :
    (∃ p, (s.b.blocks g).int = some p) ∧ (s.b.blocks g).refs = 0 ∧ ((s.b.blocks g).dirty = true ∨ (s.b.blocks g).ext ≠ none) ∧ g < s.b.n := by
  have h1 := (h.sw.ev.mem g).1 ((h.base.vev g).2 hg)
  rw [h.base.blocks] at h1
  obtain ⟨p, hp⟩ := Option.ne_none_iff_exists'.1 h1.1
  refine ⟨⟨p, hp⟩, h1.2, ?_, ?_⟩
  · have := h.sw.ev.valid g; rw [h.base.blocks] at this; exact this h1.1 h1.2
  · have := (h.sw.core.att g p (by rw [h.base.blocks]; exact hp)).1
    rw [h.base.n] at this; exact this

theorem Inv.ev_of {dflt : D} {a : Abs D} {k : Ctx} {v : Swap.St D} {s : St D} (h : Inv dflt a k v s) {g : Nat} (hi : (s.b.blocks g).int ≠ none) (hr : (s.b.blocks g).refs = 0) :
    g ∈ s.freeEv ∨ g ∈ s.schedEv ∨ k.out = some g := by
  refine (h.base.vev g).1 ((h.sw.ev.mem g).2 ?_)
  rw [h.base.blocks]; exact ⟨hi, hr⟩

theorem getFreeBs_cons {b : Swap.St D} {p : Nat} {rest : List Nat} (h : b.free = p :: rest) : Swap.getFreeBs b = (some p, { b with free := rest }) := by
  unfold Swap.getFreeBs; rw [h]

theorem getFreeBs_grow {b : Swap.St D} (h : b.free = []) (hr : 0 < b.remaining) :
    ∃ j, 0 < j ∧ j ≤ b.remaining ∧
      Swap.getFreeBs b = (some b.next, { b with remaining := b.remaining - j, next := b.next + j, free := List.range' (b.next + 1) (j - 1) }) := by
  refine ⟨min Swap.allocAtOnce b.remaining, ?_, by omega, ?_⟩
  · have : 0 < Swap.allocAtOnce := by decide
    omega
  · unfold Swap.getFreeBs; rw [h]; simp only [hr, if_true]

theorem getFreeBs_no {b : Swap.St D} (h : b.free = []) (hr : b.remaining = 0) : Swap.getFreeBs b = (none, b) := by
  unfold Swap.getFreeBs; rw [h]; simp [hr]

theorem ctx_out {k : Ctx} (h : k.out = none) : { k with out := none } = k := by cases k; subst h; rfl

theorem FrS.setMeta (s : St D) (c : Nat) (m : Option Meta) : FrS s (s.setMeta c m) := ⟨rfl, rfl, rfl, rfl, fun _ => rfl, fun _ => rfl, rfl, fun h1 h2 => ⟨h1, h2⟩, fun _ h => h⟩

theorem shallKeep_false {s : St D} {c : Nat} {l : List POp} (h : ∀ o ∈ l, isAcq o = false) (hd : (s.b.blocks c).dirty = true → POp.deinit ∉ l) : shallKeep s c l = false := by
  unfold shallKeep
  rw [List.any_eq_false]
  intro o ho
  have := keepOp_false (d := (s.blk c).dirty) (h o ho) (fun hx hc => hd hx (hc ▸ ho))
  rw [this]; simp

theorem shallKeep_true {s : St D} {c : Nat} {l : List POp} (h : shallKeep s c l = true) : (∃ o ∈ l, isAcq o = true) ∨ ((s.b.blocks c).dirty = true ∧ POp.deinit ∈ l) := by
  unfold shallKeep at h
  obtain ⟨o, h1, h2⟩ := List.any_eq_true.1 h
  cases o <;> simp only [keepOp, Bool.false_eq_true] at h2
  · exact .inl ⟨_, h1, rfl⟩
  · exact .inl ⟨_, h1, rfl⟩
  · exact .inr ⟨h2, h1⟩

theorem not_keep {s : St D} {c : Nat} {l : List POp} (h : shallKeep s c l = false) : (∀ o ∈ l, isAcq o = false) ∧ ((s.b.blocks c).dirty = true → POp.deinit ∉ l) := by
  unfold shallKeep at h
  rw [List.any_eq_false] at h
  constructor
  · intro o ho
    have := h o ho
    cases o <;> simp_all [keepOp, isAcq]
  · intro hd hc
    have := h _ hc
    simp only [keepOp] at this
    exact this hd

theorem evict_ok (E : Env D) (hE : ∀ l, E.pick l ∉ l) {dflt : D} {a : Abs D} {k : Ctx} {v : Swap.St D} {s : St D} (h : Inv dflt a k v s) (hs : Sch k s) (hn : s.next ≠ []) {c g : Nat}
    (hic : (s.b.blocks c).int = none) (hrc : rsv s c = none) (hS : ∃ U x, k.S = U ++ [x] ∧ x.id = c ∧ isAcq x.op = true) (hg : g ∈ s.freeEv) {m : Meta} (hm : s.sched c = some m) :
    ∃ b s1 p m1 s2 v', scheduleWrite E { s with freeEv := eraseId s.freeEv g } g = some (b, s1) ∧ detach E s1 g = some (p, s1.setBlk g { s1.b.blocks g with int := none }) ∧
      s1.sched c = some m1 ∧ (b = true → ∃ w, s1.wsched g = some w ∧
        s2 = (((s1.setBlk g { s1.b.blocks g with int := none }).setMeta c (some { m1 with reserved := some p, giver := some g })).setWrr g (some { w with taker := some c }))) ∧
      (b = false → s2 = ((s1.setBlk g { s1.b.blocks g with int := none }).setMeta c (some { m1 with reserved := some p, giver := none }))) ∧
      Inv dflt a k v' s2 ∧ FrS s s2 ∧ s2.next = s.next ∧ rsv s2 c = some p ∧ (s2.b.blocks c).int = none := by
  obtain ⟨U, x, hU, hxc, hxa⟩ := hS
  have hac : HasAcq k.S c := hasAcq_iff.2 ⟨x, by rw [hU]; simp, hxc, hxa⟩
  obtain ⟨⟨p, hp⟩, hr, hval, hgn⟩ := h.ev_facts (.inl hg)
  obtain ⟨hna, hnd⟩ := h.plan.evF g hg
  have hne : c ≠ g := by rintro rfl; rw [hic] at hp; cases hp
  have hw := h.free_wsched hn (by rw [hp]; simp) (hs.due g) hna
  have hgs := h.base.disj g hg
  have hsn : ∃ y l, s.next = y :: l := by cases hx : s.next with | nil => exact absurd hx hn | cons y l => exact ⟨y, l, rfl⟩
  -- the block is taken out of the set
  have h1 : Inv dflt a { k with out := some g } v { s with freeEv := eraseId s.freeEv g } := by
    have := h.lists (eraseId s.freeEv g) s.schedEv (some g) (fun i => ?_) (fun i hi => h.base.disj i (mem_eraseId.1 hi).1) (fun i hi => h.plan.evF i (mem_eraseId.1 hi).1) h.plan.evS
    · exact this
    · rw [mem_eraseId, hs.out]
      constructor
      · rintro (h1 | h1 | h1)
        · exact .inl h1.1
        · exact .inr (.inl h1)
        · cases h1; exact .inl hg
      · rintro (h1 | h1 | h1)
        · by_cases e : i = g
          · exact .inr (.inr (by rw [e]))
          · exact .inl ⟨h1, e⟩
        · exact .inr (.inl h1)
        · cases h1
  have hbase : ({ s with freeEv := eraseId s.freeEv g } : St D) = (({ s with freeEv := eraseId s.freeEv g } : St D).withNext []).withNext s.next := rfl
  have h2 := h1.setNext [] (fun hx => absurd hx hn)
  generalize hs0 : (({ s with freeEv := eraseId s.freeEv g } : St D).withNext []) = s0 at h2
  have b0 : s0.b = s.b := by rw [← hs0]; rfl
  have w0 : s0.wsched = s.wsched := by rw [← hs0]; rfl
  have sc0 : s0.sched = s.sched := by rw [← hs0]; rfl
  have fe0 : s0.freeEv = eraseId s.freeEv g := by rw [← hs0]; rfl
  have se0 : s0.schedEv = s.schedEv := by rw [← hs0]; rfl
  have pr0 : s0.pred = s.pred := by rw [← hs0]; rfl
  have hbase' : ({ s with freeEv := eraseId s.freeEv g } : St D) = s0.withNext s.next := by rw [hbase, hs0]
  have htouch : (s.b.blocks g).dirty = true → ∀ o ∈ opsIn k.S g, touches o = false := by
    intro hd o ho
    cases hz : touches o with
    | false => rfl
    | true =>
      exfalso
      cases o with
      | deinit => exact hnd hd ho
      | acquire => exact hna ⟨_, ho, rfl⟩
      | acquireUninit => exact hna ⟨_, ho, rfl⟩
      | _ => cases hz
  obtain ⟨b, s1, v1, e1, e2, e3⟩ := scheduleWrite_ok E hE h2 (g := g) (by rw [b0, hp]; simp) (by rw [b0]; exact hr) (by rw [b0]; exact fun hd => .inl ⟨by rw [← hs0]; rfl, htouch hd⟩)
  -- the state after the write is scheduled
  have key : (s1.b.blocks g).int = some p ∧ (s1.b.blocks g).refs = 0 ∧ (s1.b.blocks g).dirty = false ∧ (s1.b.blocks g).ext ≠ none ∧ (∀ i, i ≠ g → s1.b.blocks i = s.b.blocks i) ∧
      s1.b = { s.b with blocks := s1.b.blocks, mem := s1.b.mem, disk := s1.b.disk } ∧ s1.freeEv = eraseId s.freeEv g ∧ s1.schedEv = s.schedEv ∧ s1.pred = s.pred ∧
      (∀ i, rsv s1 i = rsv s i) ∧ (∃ m1, s1.sched c = some m1) ∧ (b = false → ∀ w, s1.wsched g = some w → Stray { k with out := some g } s1 g w) ∧
      (b = true → ∃ w, s1.wsched g = some w ∧ w.taker = none ∧ w.buf = p ∧ w.shallRead = false) ∧
      (∀ g' w, g' ≠ g → s1.wsched g' = some w → w.taker ≠ none ∨ Stray { k with out := some g } s1 g' w) := by
    rcases e3 with ⟨rfl, rfl, rfl, hd⟩ | ⟨rfl, hd, e, p', hp', hfr⟩
    · rw [b0] at hd
      rw [b0]
      refine ⟨hp, hr, hd, ?_, fun _ _ => rfl, rfl, fe0, se0, pr0, fun i => by unfold rsv; rw [sc0], ⟨m, by rw [sc0]; exact hm⟩, fun _ w hz => ?_, nofun, fun g' w _ hw' => ?_⟩
      · rcases hval with hv | hv
        · rw [hd] at hv; cases hv
        · exact hv
      · rw [w0] at hz; exact (hw w hz).same rfl rfl id ⟨rfl, rfl⟩ (by rw [b0])
      · rw [w0] at hw'; exact (h.taker_some hn hw').imp id fun st => st.same rfl rfl id ⟨rfl, rfl⟩ (by rw [b0])
    · rw [b0, hp] at hp'; cases hp'
      have hb : s1.b.blocks = (s0.b.set g { s0.b.blocks g with ext := some e, dirty := false }).blocks := hfr.blocks
      have hbg : s1.b.blocks g = { s.b.blocks g with ext := some e, dirty := false } := by rw [hb, Swap.set_same, b0]
      have hbx : ∀ i, i ≠ g → s1.b.blocks i = s.b.blocks i := fun i hi => by rw [hb, Swap.set_other _ _ hi, b0]
      refine ⟨by rw [hbg]; exact hp, by rw [hbg]; exact hr, by rw [hbg], by rw [hbg]; simp, hbx, ?_, by rw [hfr.freeEv]; exact fe0, by rw [hfr.schedEv]; exact se0, by rw [hfr.pred]; exact pr0, ?_, ?_, nofun, fun _ => ?_, fun g' w hg' hw' => ?_⟩
      · have := hfr.b
        rw [show ((s0.setBlk g { s0.b.blocks g with ext := some e, dirty := false }).setWrr g (some { buf := p, ext := e })).b = s0.b.set g { s0.b.blocks g with ext := some e, dirty := false } from rfl, b0] at this
        rw [hb, b0]; exact this
      · intro i; rw [hfr.rsv]; show rsv s0 i = _; unfold rsv; rw [sc0]
      · obtain ⟨r, hr⟩ := hfr.sched_some (c := c) (m := m) (show s0.sched c = some m by rw [sc0]; exact hm)
        exact ⟨_, hr⟩
      · obtain ⟨ph, hph⟩ := hfr.wSome (g := g) (setWrr_same _ _ _)
        exact ⟨_, hph, rfl, rfl, rfl⟩
      · have hx := hfr.wsched g'
        rw [hw', setWrr_other _ _ hg'] at hx
        have hx : (some w).map _ = (s0.wsched g').map _ := hx
        rw [w0] at hx
        cases hz : s.wsched g' with
        | none => rw [hz] at hx; cases hx
        | some w' =>
          rw [hz] at hx
          have ht := h.taker_some hn hz
          simp only [Option.map_some, Option.some.injEq, Wrr.mk.injEq] at hx
          rcases ht with ht | st
          · left; rw [hx.2.2.2.1]; exact ht
          · exact .inr (st.same hx.2.2.2.1 hx.2.1 id ⟨rfl, rfl⟩ (by rw [hbx g' hg']))
  obtain ⟨k1, k2, k3, k4, k5, k6, k7, k8, k9, k10, ⟨m1, k11⟩, k12, k13, k14⟩ := key
  -- the final state
  have hbef : (s.b.blocks g).dirty = true → Before k.S c g := fun hd =>
    ⟨U, x, [], hU, hxc, hxa, fun y hy hyg => htouch hd y.op (mem_opsIn.2 ⟨y, by rw [hU]; simp [hy], hyg, rfl⟩)⟩
  have hbd : b = true → (s.b.blocks g).dirty = true := by
    rintro rfl
    rcases e3 with ⟨hc, _⟩ | ⟨_, hd, _⟩
    · cases hc
    · rw [b0] at hd; exact hd
  have fin : ∀ s2 : St D, Handed s1 s2 c g p b → s2.pred = s1.pred → s2.next = s.next → ∃ v', Inv dflt a k v' s2 ∧ FrS s s2 ∧ s2.next = s.next ∧ rsv s2 c = some p ∧ (s2.b.blocks c).int = none := by
    intro s2 hh hpr hnx
    obtain ⟨v', hv⟩ := hand_ok e2 hh (by rw [k5 c hne]; exact hic) (by rw [k10]; exact hrc) hac rfl k1 k2 k3 k4 (hs.due g) hna (by rw [k7, mem_eraseId]; exact fun hc => hc.2 rfl)
      (by rw [k8]; exact hgs) k12 (fun hb => ⟨hbef (hbd hb), k13 hb⟩) (.inr k14)
    have hv : Inv dflt a { k with out := none } v' s2 := hv
    rw [ctx_out hs.out] at hv
    refine ⟨v', hv, ?_, hnx, hh.rsvC, by rw [hh.bx c hne, k5 c hne]; exact hic⟩
    refine ⟨by rw [hh.b, k6], by rw [hh.b, k6], by rw [hh.b, k6], by rw [hh.b, k6], fun i => ?_, fun i => ?_, by rw [hpr, k9], fun x1 x2 => ⟨by rw [hh.b, k6]; exact x1, by rw [hh.b, k6]; exact x2⟩, fun i hi => ?_⟩
    · by_cases e : i = g
      · subst e; rw [hh.bg, hr]; exact k2
      · rw [hh.bx i e, k5 i e]
    · by_cases e : i = g
      · subst e; rw [hh.bg]
        simp only [SB.isInitialized, SB.isInternal, SB.isExternal, hp, k3]
        simp [Option.isSome_iff_ne_none, k4]
      · rw [hh.bx i e, k5 i e]
    · rw [hh.freeEv, k7] at hi; exact (mem_eraseId.1 hi).1
  have hsw : scheduleWrite E { s with freeEv := eraseId s.freeEv g } g = some (b, s1.withNext s.next) := by
    rw [hbase', scheduleWrite_next, e1]; rfl
  have hdet : detach E (s1.withNext s.next) g = some (p, (s1.withNext s.next).setBlk g { s1.b.blocks g with int := none }) := detach_clean E k1 k2 k3
  cases b with
  | true =>
    obtain ⟨w, hw1, hw2, _⟩ := k13 rfl
    have hh : Handed s1 ((((s1.withNext s.next).setBlk g { s1.b.blocks g with int := none }).setMeta c (some { m1 with reserved := some p, giver := some g })).setWrr g (some { w with taker := some c })) c g p true := by
      refine ⟨rfl, setBlk_b_same _ _ _, fun i hi => setBlk_b_other (s1.withNext s.next) _ hi, rfl, rfl, rfl, rfl, ?_, fun i hi => ?_, fun i => ?_, fun i => ?_, fun d m' hd => ?_, ?_, fun i hi => ?_, ?_, fun i hi => setWrr_other _ _ hi⟩
      · exact (rsv_setMeta _ _ _ _).trans (if_pos rfl)
      · exact (rsv_setMeta _ _ _ _).trans (if_neg hi)
      · refine (rrq_setMeta _ _ _ _).trans ?_
        split
        · rename_i e; subst e; exact (rrq_of k11).symm
        · rfl
      · refine (opsOf_setMeta _ _ _ _).trans ?_
        split
        · rename_i e; subst e; exact (opsOf_of k11).symm
        · rfl
      · by_cases e : d = c
        · subst e
          have hd : ((s1.withNext s.next).setBlk g _ |>.setMeta d _).sched d = some m' := hd
          rw [setMeta_same] at hd; cases hd; exact ⟨m1, k11, rfl⟩
        · have hd : ((s1.withNext s.next).setBlk g _ |>.setMeta c _).sched d = some m' := hd
          rw [setMeta_other _ _ e] at hd; exact ⟨m', hd, rfl⟩
      · exact (gvr_setMeta _ _ _ _).trans (if_pos rfl)
      · exact (gvr_setMeta _ _ _ _).trans (if_neg hi)
      · rw [setWrr_same, hw1]; rfl
    obtain ⟨v', f1, f2, f3, f4, f5⟩ := fin _ hh rfl rfl
    exact ⟨true, _, p, m1, _, v', hsw, hdet, k11, fun _ => ⟨w, hw1, rfl⟩, nofun, f1, f2, f3, f4, f5⟩
  | false =>
    have hh : Handed s1 (((s1.withNext s.next).setBlk g { s1.b.blocks g with int := none }).setMeta c (some { m1 with reserved := some p, giver := none })) c g p false := by
      refine ⟨rfl, setBlk_b_same _ _ _, fun i hi => setBlk_b_other (s1.withNext s.next) _ hi, rfl, rfl, rfl, rfl, ?_, fun i hi => ?_, fun i => ?_, fun i => ?_, fun d m' hd => ?_, ?_, fun i hi => ?_, ?_, fun i hi => rfl⟩
      · exact (rsv_setMeta _ _ _ _).trans (if_pos rfl)
      · exact (rsv_setMeta _ _ _ _).trans (if_neg hi)
      · refine (rrq_setMeta _ _ _ _).trans ?_
        split
        · rename_i e; subst e; exact (rrq_of k11).symm
        · rfl
      · refine (opsOf_setMeta _ _ _ _).trans ?_
        split
        · rename_i e; subst e; exact (opsOf_of k11).symm
        · rfl
      · by_cases e : d = c
        · subst e
          rw [setMeta_same] at hd; cases hd; exact ⟨m1, k11, rfl⟩
        · rw [setMeta_other _ _ e] at hd; exact ⟨m', hd, rfl⟩
      · exact (gvr_setMeta _ _ _ _).trans (if_pos rfl)
      · exact (gvr_setMeta _ _ _ _).trans (if_neg hi)
      · rfl
    obtain ⟨v', f1, f2, f3, f4, f5⟩ := fin _ hh rfl rfl
    exact ⟨false, _, p, m1, _, v', hsw, hdet, k11, nofun, fun _ => rfl, f1, f2, f3, f4, f5⟩

/-- 1568, 1583-1595 -/
theorem reserve_ok (E : Env D) (hE : ∀ l, E.pick l ∉ l) {dflt : D} {a : Abs D} {k : Ctx} {v : Swap.St D} {s : St D} (h : Inv dflt a k v s) (hs : Sch k s) (hn : s.next ≠ []) {c : Nat}
    (hic : (s.b.blocks c).int = none) (hrc : rsv s c = none) (hS : ∃ U x, k.S = U ++ [x] ∧ x.id = c ∧ isAcq x.op = true) :
    ∃ b s' v', reserve E s c = some (b, s') ∧ Inv dflt a k v' s' ∧ FrS s s' ∧ s'.next = s.next ∧ (s'.b.blocks c).int = none ∧
      (b = false → s' = s ∧ s.b.free = [] ∧ s.b.remaining = 0 ∧ s.freeEv = []) ∧
      (b = true → (∃ q, rsv s' c = some q) ∧ ¬ (s.b.free = [] ∧ s.b.remaining = 0 ∧ s.freeEv = [])) := by
  have hac : HasAcq k.S c := by
    obtain ⟨U, x, hU, hxc, hxa⟩ := hS
    exact hasAcq_iff.2 ⟨x, by rw [hU]; simp, hxc, hxa⟩
  obtain ⟨m, hm⟩ := h.sched_some hac
  unfold reserve
  cases hf : s.b.free with
  | cons p rest =>
    rw [getFreeBs_cons hf]
    simp only [hm, Option.map_some]
    refine ⟨true, _, v, rfl, take_ok h hm hf hic hac hrc, ?_, rfl, hic, nofun, fun _ => ⟨⟨p, ?_⟩, nofun⟩⟩
    · exact ⟨rfl, rfl, rfl, rfl, fun _ => rfl, fun _ => rfl, rfl, fun h1 h2 => (by rw [hf] at h1; cases h1), fun _ h => h⟩
    · rw [rsv_setMeta, if_pos rfl]
  | nil =>
    by_cases hr : 0 < s.b.remaining
    · obtain ⟨j, hj0, hj, hg⟩ := getFreeBs_grow hf hr
      rw [hg]
      simp only [hm, Option.map_some]
      obtain ⟨v1, h1⟩ := grow_ok h j hj hf
      obtain ⟨i, hi⟩ : ∃ i, j = i + 1 := ⟨j - 1, by omega⟩
      have h2 := take_ok h1 (c := c) (p := s.b.next) (rest := List.range' (s.b.next + 1) (j - 1)) (m := m) hm (by subst hi; rfl) hic hac hrc
      refine ⟨true, _, v1, rfl, h2, ?_, rfl, hic, nofun, fun _ => ⟨⟨s.b.next, ?_⟩, fun hx => by omega⟩⟩
      · exact ⟨rfl, rfl, rfl, rfl, fun _ => rfl, fun _ => rfl, rfl, fun h1 h2 => (by omega), fun _ h => h⟩
      · rw [rsv_setMeta, if_pos rfl]
    · have hr : s.b.remaining = 0 := by omega
      rw [getFreeBs_no hf hr]
      simp only
      cases hg : firstId s.freeEv with
      | none => exact ⟨false, s, v, rfl, h, FrS.refl s, rfl, hic, fun _ => ⟨rfl, by simp, hr, firstId_none hg⟩, nofun⟩
      | some g =>
        simp only
        have hgm := firstId_mem hg
        have hk : ((s.sched g).map fun m => shallKeep s g m.ops) ≠ some true := by
          cases hz : s.sched g with
          | none => simp
          | some mg =>
            simp only [Option.map_some, ne_eq, Option.some.injEq, Bool.not_eq_true]
            obtain ⟨x1, x2⟩ := h.plan.evF g hgm
            have ho := h.plan.ops g
            rw [opsOf_of hz] at ho
            have hcur : ∀ o ∈ curOps k.cur g, touches o = false := by
              intro o hx
              cases hcu : k.cur with
              | none => rw [hcu] at hx; cases hx
              | some y =>
                rw [hcu] at hx
                simp only [curOps] at hx
                split at hx
                · rename_i e; subst e; simp only [List.mem_singleton] at hx; subst hx; exact hs.cur y hcu hgm
                · cases hx
            refine shallKeep_false (fun o hx => ?_) (fun hd hx => ?_)
            · rw [ho] at hx
              rcases List.mem_append.1 hx with hx | hx
              · have := hcur o hx; cases o <;> simp_all [touches, isAcq]
              · cases hy : isAcq o with
                | false => rfl
                | true => exact absurd ⟨o, hx, hy⟩ x1
            · rw [ho] at hx
              rcases List.mem_append.1 hx with hx | hx
              · have := hcur _ hx; cases this
              · exact x2 hd hx
        rw [if_neg hk]
        obtain ⟨b, s1, p, m1, s2, v', e1, e2, e3, e4, e5, e6, e7, e8, e9, e10⟩ := evict_ok E hE h hs hn hic hrc hS hgm hm
        rw [e1, Option.bind_some]
        simp only
        rw [e2, Option.bind_some]
        simp only
        rw [show (s1.setBlk g { s1.b.blocks g with int := none }).sched c = some m1 from e3, Option.bind_some]
        have hne : s.freeEv ≠ [] := fun hx => by rw [hx] at hgm; cases hgm
        refine ⟨true, s2, v', ?_, e6, e7, e8, e10, nofun, fun _ => ⟨⟨p, e9⟩, fun hx => hne hx.2.2⟩⟩
        cases b with
        | true =>
          obtain ⟨w, hw1, hw2⟩ := e4 rfl
          simp only [if_true]
          rw [show ((s1.setBlk g { s1.b.blocks g with int := none }).setMeta c (some { m1 with reserved := some p, giver := some g })).wsched g = some w from hw1, hw2]
          rfl
        | false =>
          simp only [Bool.false_eq_true, if_false]
          rw [e5 rfl]

end Foxxll.Ahead
