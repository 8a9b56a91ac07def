import Verif.Proofs.AheadSwap

set_option linter.unusedSimpArgs false
set_option linter.unusedVariables false
set_option linter.unusedSectionVars false

/-
offline_lru_prefetching: `schedule_read`.
-/
namespace Foxxll.Ahead
open Foxxll.Swap (SB Env POp Elem Op Res Abs Allowed Expected)

variable {D : Type} [Slack D]

theorem Inv.dueCongr {dflt : D} {a : Abs D} {k : Ctx} {v : Swap.St D} {s : St D} (h : Inv dflt a k v s) (due : Nat → Prop)
    (hd : ∀ i, k.due i ↔ due i) : Inv dflt a { k with due := due } v s := by
  have : due = k.due := funext fun i => propext (hd i).symm
  rw [this]; exact h

/-- The flags of the write request of the giver of a due block are set. -/
theorem flag_ok {dflt : D} {a : Abs D} {k : Ctx} {v : Swap.St D} {s : St D} (h : Inv dflt a k v s) {c g : Nat} {w : Wrr} (b : Bool) (hd : k.due c)
    (hw : s.wsched g = some w) (hg : gvr s c = some g) (hwc : s.wsched c = none) :
    Inv dflt a k v (s.setWrr g (some { w with target := c, taker := some c, shallRead := b })) := by
  have hne : c ≠ g := by rintro rfl; rw [hw] at hwc; cases hwc
  have htk : w.taker = some c := h.io.gvrW c g w hg hw
  obtain ⟨d1, d2, d3, d4, d5⟩ := h.io.dueOk c hd
  have hws : ∀ j x, (s.setWrr g (some { w with target := c, taker := some c, shallRead := b })).wsched j = some x → ∃ y, s.wsched j = some y ∧ x.phase = y.phase ∧ x.taker = y.taker ∧
      x.buf = y.buf ∧ x.ext = y.ext ∧ (j = g ∧ y = w ∧ x = { w with target := c, taker := some c, shallRead := b } ∨ j ≠ g ∧ x = y) := by
    intro j x hj
    by_cases e : j = g
    · subst e; rw [setWrr_same] at hj; cases hj; exact ⟨w, hw, rfl, htk.symm, rfl, rfl, .inl ⟨rfl, rfl, rfl⟩⟩
    · rw [setWrr_other _ _ e] at hj; exact ⟨x, hj, rfl, rfl, rfl, rfl, .inr ⟨e, rfl⟩⟩
  have hwn : ∀ j, s.wsched j = none → (s.setWrr g (some { w with target := c, taker := some c, shallRead := b })).wsched j = none := by
    intro j hj
    by_cases e : j = g
    · subst e; rw [hw] at hj; cases hj
    · rw [setWrr_other _ _ e]; exact hj
  have hfr : Fr0 s (s.setWrr g (some { w with target := c, taker := some c, shallRead := b })) := ⟨rfl, rfl, rfl, rfl, rfl, fun _ => rfl⟩
  refine ⟨h.sw, h.base.fr hfr, h.plan.fr hfr, ?_, ?_⟩
  · refine ⟨fun d r hr => ?_, h.io.rrqInj, fun d r g' x hr hg hx => ?_, h.io.rdOk, h.io.rdNd, h.io.gvrOk,
      fun d g' x hg hx => ?_, fun g' x hx => ?_, h.io.dueOk⟩
    · obtain ⟨a1, a2, a3, a4, a5, a6, a7⟩ := h.io.rrqOk d r hr
      exact ⟨a1, a2, a3, a4, a5, hwn d a6, a7⟩
    · obtain ⟨y, y1, y2, _⟩ := hws g' x hx
      rw [y2]; exact h.io.rrqW d r g' y hr hg y1
    · obtain ⟨y, y1, y2, y3, _⟩ := hws g' x hx
      rw [y3]; exact h.io.gvrW d g' y hg y1
    · obtain ⟨y, y1, y2, y3, y4, y5, y6⟩ := hws g' x hx
      obtain ⟨a1, a2, hh⟩ := h.io.wOk g' y y1
      rcases hh.symm with st | ⟨a3, a4⟩
      · refine ⟨by rw [y5]; exact a1, a2, .inr ?_⟩
        rcases y6 with ⟨rfl, rfl, rfl⟩ | ⟨e, rfl⟩
        · rw [st.2.1] at htk; cases htk
        · exact st.same rfl rfl id ⟨rfl, rfl⟩ rfl
      refine ⟨by rw [y5]; exact a1, a2, .inl ⟨a3, ?_⟩⟩
      rcases y6 with ⟨rfl, rfl, rfl⟩ | ⟨e, rfl⟩
      · rcases a4 with ⟨_, _, _, b4⟩ | ⟨m, b1, b2, b3, b4, b5, b6, b7⟩
        · rcases b4 with b4 | b4
          · rw [b4.1] at htk; cases htk
          · rw [b4.1] at htk; exact absurd (Option.some.inj htk).symm hne
        · rw [htk] at b1; cases b1
          exact .inr ⟨c, rfl, b2, b3, b4, b5, fun _ => ⟨rfl, d1, hwn c hwc, d4, d3, fun _ => .inr hd⟩, fun _ => .inr hd⟩
      · rcases a4 with b1 | ⟨m, b1, b2, b3, b4, b5, b6, b7⟩
        · exact .inl b1
        · refine .inr ⟨m, b1, b2, b3, b4, b5, fun hs => ?_, b7⟩
          obtain ⟨c1, c2, c3, c4⟩ := b6 hs
          exact ⟨c1, c2, hwn m c3, c4⟩
  · have hrd : ∀ i, Rdg k s i ↔ Rdg k (s.setWrr g (some { w with target := c, taker := some c, shallRead := b })) i := by
      intro i
      unfold Rdg
      refine or_congr Iff.rfl (and_congr Iff.rfl ?_)
      by_cases ei : i = c
      · subst ei; exact ⟨fun _ => .inl hd, fun _ => .inl hd⟩
      · refine or_congr Iff.rfl ⟨?_, ?_⟩
        · rintro ⟨g', w', h1, h2, h3⟩
          by_cases e : g' = g
          · subst e
            rw [hw] at h2; cases h2
            have := h.io.gvrW i g' w h1 hw
            rw [htk] at this; exact absurd (Option.some.inj this).symm ei
          · exact ⟨g', w', h1, by rw [setWrr_other _ _ e]; exact h2, h3⟩
        · rintro ⟨g', w', h1, h2, h3⟩
          obtain ⟨y, y1, y2, y3, y4, y5, ⟨rfl, rfl, rfl⟩ | ⟨e, rfl⟩⟩ := hws g' w' h2
          · have := h.io.gvrW i g' y h1 hw
            rw [htk] at this; exact absurd (Option.some.inj this).symm ei
          · exact ⟨g', w', h1, y1, h3⟩
    refine ⟨fun g' x hx hi => ?_, fun e he => ?_, fun i p e hi => h.view.vmR i p e ((hrd i).2 hi),
      fun p hp' => h.view.vmN p fun i hi hc => hp' i hi ((hrd i).1 hc)⟩
    · obtain ⟨y, y1, y2, y3, y4, y5, _⟩ := hws g' x hx
      rw [y4, y5]
      exact h.view.intact g' y y1 fun m hm => hi m (by rw [y3]; exact hm)
    · refine h.view.vdN e fun g' y hy hyp => ?_
      by_cases e' : g' = g
      · subst e'; rw [hw] at hy; cases hy
        exact he g' { w with target := c, taker := some c, shallRead := b } (setWrr_same _ _ _) hyp
      · exact he g' y (by rw [setWrr_other _ _ e']; exact hy) hyp

theorem FrW.clearGiver {s : St D} {c : Nat} {m : Meta} (hm : s.sched c = some m) : FrW s (s.setMeta c (some { m with giver := none })) := by
  refine ⟨rfl, rfl, rfl, rfl, rfl, fun d => ?_, fun d => ?_⟩
  · rw [rsv_setMeta]; split
    · rename_i e; subst e; exact (rsv_of hm).symm
    · rfl
  · rw [opsOf_setMeta]; split
    · rename_i e; subst e; exact (opsOf_of hm).symm
    · rfl

theorem FrW.setWrr (s : St D) (g : Nat) (w : Option Wrr) : FrW s (s.setWrr g w) := ⟨rfl, rfl, rfl, rfl, rfl, fun _ => rfl, fun _ => rfl⟩

/-- The read of a due block without giver is started. -/
theorem startOwn_ok {dflt : D} {a : Abs D} {k : Ctx} {v : Swap.St D} {s : St D} (h : Inv dflt a k v s) {c : Nat} (hd : k.due c)
    (hw : s.wsched c = none) (hr : rrq s c = none) (hg : gvr s c = none) :
    ∃ s', startRead s c c = some s' ∧ Inv dflt a { k with due := fun i => k.due i ∧ i ≠ c } v s' ∧ FrW s s' := by
  obtain ⟨s', h1, h2, h3, h4, h5⟩ := startRead_ok h hd hr hw (fun g w hg' => by rw [hg] at hg'; cases hg')
  refine ⟨s', h1, ?_, h3.toFr0.frW⟩
  refine h2.dropDue _ (fun i hi => hi.1) fun i hi hni => ?_
  have e : i = c := Classical.byContradiction fun hc => hni ⟨hi, hc⟩
  subst e
  refine ⟨by rw [h5]; exact hw, fun g w hg' => ?_, fun hc => absurd hc h4⟩
  rw [h3.gvr, hg] at hg'; cases hg'

theorem readOwn_ok {dflt : D} {a : Abs D} {k : Ctx} {v : Swap.St D} {s : St D} (h : Inv dflt a k v s) {c : Nat} (hd : k.due c)
    (hw : s.wsched c = none) (hr : rrq s c = none) :
    ∃ s', readOwn s c = some s' ∧ Inv dflt a { k with due := fun i => k.due i ∧ i ≠ c } v s' ∧ FrW s s' := by
  obtain ⟨d1, d2, d3, d4, d5⟩ := h.io.dueOk c hd
  obtain ⟨m, hm⟩ := h.sched_some d5.hasAcq
  unfold readOwn
  rw [hm]
  simp only
  cases hg : m.giver with
  | none =>
    simp only
    exact startOwn_ok h hd hw hr (by rw [gvr_of hm]; exact hg)
  | some g =>
    simp only
    have hgc : gvr s c = some g := by rw [gvr_of hm]; exact hg
    cases hwg : s.wsched g with
    | none =>
      simp only
      have h1 := clearGiver_ok h hm hg hwg
      obtain ⟨s', h2, h3, h4⟩ := startOwn_ok h1 hd hw (by rw [rrq_setMeta, if_pos rfl]; rw [rrq_of hm] at hr; exact hr) (by rw [gvr_setMeta, if_pos rfl])
      exact ⟨s', h2, h3, (FrW.clearGiver hm).trans h4⟩
    | some w =>
      simp only
      have hne : c ≠ g := by rintro rfl; rw [hwg] at hw; cases hw
      have h1 := flag_ok h true hd hwg hgc hw
      obtain ⟨s1, h2, h3, h4⟩ := sync_ok h1
      obtain ⟨ph, h5⟩ := h4.wSome (setWrr_same s g _)
      have h6 : s1.wsched c = none := (h4.wNone c).2 (by rw [setWrr_other _ _ hne]; exact hw)
      have hgc1 : gvr s1 c = some g := by rw [h4.gvr]; exact hgc
      rw [h2, Option.bind_some, h5]
      simp only
      split
      · obtain ⟨s2, h7, h8, h9, h10, h11, _⟩ := waitWrite_ok h3 g
        obtain ⟨r1, h12⟩ := (h4.toFr0.trans h9).sched_some (show (s.setWrr g _).sched c = some m from hm)
        have hw2 : s2.wsched c = none := by
          have := h11 c hne; rw [h6] at this
          cases hx : s2.wsched c with
          | none => rfl
          | some x => rw [hx] at this; cases this
        have h13 := clearGiver_ok h8 h12 hg h10
        have hf := ((FrW.setWrr s g _).trans (h4.toFr0.trans h9).frW).trans (FrW.clearGiver h12)
        rw [h7, Option.bind_some, h12]
        simp only
        split
        · rename_i hrs
          refine ⟨_, rfl, ?_, hf⟩
          refine h13.dropDue _ (fun i hi => hi.1) fun i hi hni => ?_
          have e : i = c := Classical.byContradiction fun hc => hni ⟨hi, hc⟩
          subst e
          have hr2 : rrq (s2.setMeta i (some { m with readReq := r1, giver := none })) i ≠ none := by
            rw [rrq_setMeta, if_pos rfl]; show r1 ≠ none
            intro hc; rw [hc] at hrs; cases hrs
          refine ⟨hw2, fun g' w' hg' => ?_, fun hc => absurd hc hr2⟩
          rw [gvr_setMeta, if_pos rfl] at hg'; cases hg'
        · rename_i hrs
          obtain ⟨s', h14, h15, h16⟩ := startOwn_ok h13 hd hw2 (by rw [rrq_setMeta, if_pos rfl]; simpa using hrs) (by rw [gvr_setMeta, if_pos rfl])
          exact ⟨s', h14, h15, hf.trans h16⟩
      · rename_i hds
        refine ⟨_, rfl, ?_, (FrW.setWrr s g _).trans h4.toFr0.frW⟩
        refine h3.dropDue _ (fun i hi => hi.1) fun i hi hni => ?_
        have e : i = c := Classical.byContradiction fun hc => hni ⟨hi, hc⟩
        subst e
        refine ⟨h6, fun g' w' hg' hw' => ?_, fun _ => ⟨g, _, hgc1, h5, rfl⟩⟩
        rw [hgc1] at hg'; cases hg'
        rw [h5] at hw'; cases hw'
        refine ⟨rfl, fun hp => ?_⟩
        have hp : ph = .handled := hp
        subst hp
        exact absurd rfl hds

/-- What `schedule_read` leaves alone. -/
structure FrR (s t : St D) : Prop where
  b : t.b = { s.b with mem := t.b.mem, disk := t.b.disk, blocks := t.b.blocks }
  ext : ∀ i, (t.b.blocks i).ext = (s.b.blocks i).ext
  dirty : ∀ i, (t.b.blocks i).dirty = (s.b.blocks i).dirty
  refs : ∀ i, (t.b.blocks i).refs = (s.b.blocks i).refs
  int : ∀ i, (t.b.blocks i).int = none ↔ (s.b.blocks i).int = none
  freeEv : t.freeEv = s.freeEv
  schedEv : t.schedEv = s.schedEv
  pred : t.pred = s.pred
  next : t.next = s.next
  rsv : ∀ i, rsv t i = none ↔ rsv s i = none
  opsOf : ∀ i, opsOf t i = opsOf s i

theorem FrW.frR {s t : St D} (h : FrW s t) : FrR s t := by
  have hb : t.b.blocks = s.b.blocks := by rw [h.b]
  exact ⟨by rw [hb]; exact h.b, fun i => by rw [hb], fun i => by rw [hb], fun i => by rw [hb], fun i => by rw [hb], h.freeEv, h.schedEv, h.pred, h.next,
    fun i => by rw [h.rsv], h.opsOf⟩

theorem FrR.trans {s t u : St D} (h1 : FrR s t) (h2 : FrR t u) : FrR s u :=
  ⟨by rw [h2.b, h1.b], fun i => by rw [h2.ext, h1.ext], fun i => by rw [h2.dirty, h1.dirty], fun i => by rw [h2.refs, h1.refs], fun i => by rw [h2.int, h1.int],
   by rw [h2.freeEv, h1.freeEv], by rw [h2.schedEv, h1.schedEv], by rw [h2.pred, h1.pred], by rw [h2.next, h1.next], fun i => by rw [h2.rsv, h1.rsv], fun i => by rw [h2.opsOf, h1.opsOf]⟩

theorem Swapped.frR {s t : St D} {c o p q p' : Nat} (h : Swapped s t c o p q) (hp : (s.b.blocks c).int = some p') : FrR s t := by
  have hfl : ∀ i, (t.b.blocks i).ext = (s.b.blocks i).ext ∧ (t.b.blocks i).dirty = (s.b.blocks i).dirty ∧ (t.b.blocks i).refs = (s.b.blocks i).refs ∧
      ((t.b.blocks i).int = none ↔ (s.b.blocks i).int = none) := by
    intro i
    by_cases e1 : i = c
    · subst e1; rw [h.bc, hp]; simp
    · by_cases e2 : i = o
      · subst e2; rw [h.bo]; simp
      · rw [h.bx i e1 e2]; simp
  refine ⟨?_, fun i => (hfl i).1, fun i => (hfl i).2.1, fun i => (hfl i).2.2.1, fun i => (hfl i).2.2.2, h.freeEv, h.schedEv, h.pred, h.next, fun i => ?_, h.opsOf⟩
  · rw [show t.b.mem = s.b.mem by rw [h.b], show t.b.disk = s.b.disk by rw [h.b]]; exact h.b
  · by_cases e2 : i = o
    · subst e2; rw [h.rsvO]; simp
    · rw [h.rsvX i e2]

/-! ### The exchange -/

/-- The givers of `c` and `o` are exchanged. -/
structure GSwapped (s t : St D) (c o : Nat) : Prop where
  same : t = { s with sched := t.sched, wsched := t.wsched }
  rsv : ∀ i, rsv t i = rsv s i
  rrq : ∀ i, rrq t i = rrq s i
  opsOf : ∀ i, opsOf t i = opsOf s i
  opsNe : ∀ d m, t.sched d = some m → ∃ m', s.sched d = some m' ∧ m'.ops = m.ops
  gc : gvr t c = (s.wsched c).map fun _ => c
  go : gvr t o = (gvr s c).bind fun g => (s.wsched g).map fun _ => g
  gx : ∀ i, i ≠ c → i ≠ o → gvr t i = gvr s i
  wc : t.wsched c = (s.wsched c).map fun w => { w with taker := some c }
  wg : ∀ g, gvr s c = some g → g ≠ c → t.wsched g = (s.wsched g).map fun w => { w with taker := some o }
  wx : ∀ g, g ≠ c → gvr s c ≠ some g → t.wsched g = s.wsched g

/-- Only givers differ. -/
structure SameButGivers (s t : St D) : Prop where
  rest : t = { s with sched := t.sched, wsched := t.wsched }
  sched : ∀ i, (t.sched i).map (fun m => { m with giver := none }) = (s.sched i).map (fun m => { m with giver := none })

theorem SameButGivers.trans {s t u : St D} (h1 : SameButGivers s t) (h2 : SameButGivers t u) : SameButGivers s u :=
  ⟨by rw [h2.rest, h1.rest], fun i => by rw [h2.sched, h1.sched]⟩

theorem SameButGivers.setWrr (s : St D) (g : Nat) (w) : SameButGivers s (s.setWrr g w) := ⟨rfl, fun _ => rfl⟩

theorem SameButGivers.setMeta {s : St D} {c : Nat} {m : Meta} (hm : s.sched c = some m) (g : Option Nat) : SameButGivers s (s.setMeta c (some { m with giver := g })) := by
  refine ⟨rfl, fun i => ?_⟩
  by_cases e : i = c
  · subst e; rw [setMeta_same, hm]; rfl
  · rw [setMeta_other _ _ e]

theorem SameButGivers.facts {s t : St D} (h : SameButGivers s t) : (∀ i, rsv t i = rsv s i) ∧ (∀ i, rrq t i = rrq s i) ∧ (∀ i, opsOf t i = opsOf s i) ∧
    (∀ d m, t.sched d = some m → ∃ m', s.sched d = some m' ∧ m'.ops = m.ops) := by
  refine ⟨fun i => ?_, fun i => ?_, fun i => ?_, fun d m hm => ?_⟩
  · have := h.sched i
    unfold Ahead.rsv
    cases h1 : t.sched i <;> cases h2 : s.sched i <;> rw [h1, h2] at this <;> simp_all
  · have := h.sched i
    unfold Ahead.rrq
    cases h1 : t.sched i <;> cases h2 : s.sched i <;> rw [h1, h2] at this <;> simp_all
  · have := h.sched i
    unfold Ahead.opsOf
    cases h1 : t.sched i <;> cases h2 : s.sched i <;> rw [h1, h2] at this <;> simp_all
  · have := h.sched d
    rw [hm] at this
    cases h2 : s.sched d with
    | none => rw [h2] at this; cases this
    | some m' => rw [h2] at this; simp only [Option.map_some, Option.some.injEq, Meta.mk.injEq] at this; exact ⟨m', rfl, this.2.2.2.symm⟩

/-- `fixGiver` in detail. -/
theorem fixGiver_spec {s : St D} {c : Nat} {m : Meta} (hm : s.sched c = some m) :
    ∃ t, fixGiver s c = some t ∧ SameButGivers s t ∧ gvr t c = (m.giver.bind fun g => (s.wsched g).map fun _ => g) ∧ (∀ i, i ≠ c → gvr t i = gvr s i) ∧
      (∀ i, i ≠ c → t.sched i = s.sched i) ∧
      (∀ g, m.giver = some g → t.wsched g = (s.wsched g).map fun w => { w with taker := some c }) ∧ (∀ g, m.giver ≠ some g → t.wsched g = s.wsched g) := by
  unfold fixGiver
  rw [hm]
  simp only
  cases hg : m.giver with
  | none =>
    refine ⟨s, rfl, ⟨rfl, fun _ => rfl⟩, by rw [gvr_of hm, hg]; rfl, fun _ _ => rfl, fun _ _ => rfl, fun g hc => (nomatch hc), fun _ _ => rfl⟩
  | some g =>
    simp only
    cases hw : s.wsched g with
    | none =>
      simp only
      refine ⟨_, rfl, SameButGivers.setMeta hm none, by rw [gvr_setMeta, if_pos rfl]; simp [hw], fun i hi => by rw [gvr_setMeta, if_neg hi], fun i hi => setMeta_other _ _ hi, fun g' hc => ?_, fun _ _ => rfl⟩
      cases hc; show s.wsched g = _; rw [hw]; rfl
    | some w =>
      simp only
      refine ⟨_, rfl, SameButGivers.setWrr s g _, ?_, fun _ _ => rfl, fun _ _ => rfl, fun g' hc => ?_, fun g' hc => ?_⟩
      · show gvr s c = _; rw [gvr_of hm, hg]; simp [hw]
      · cases hc; rw [setWrr_same, hw]; rfl
      · rw [setWrr_other]; rintro rfl; exact hc rfl

theorem swapGivers_spec {s : St D} {c o : Nat} {mc mo : Meta} (hc : s.sched c = some mc) (ho : s.sched o = some mo) (hne : o ≠ c) (hgo : mo.giver = some c)
    (hgc : ∀ w, mc.giver = some c → s.wsched c ≠ some w) : ∃ t, swapGivers s c o = some t ∧ GSwapped s t c o := by
  unfold swapGivers
  rw [hc, ho]
  simp only
  have h1 : (s.setMeta o (some { mo with giver := mc.giver })).sched c = some mc := by rw [setMeta_other _ _ hne.symm]; exact hc
  rw [h1]
  simp only
  have b1 := SameButGivers.setMeta ho mc.giver
  have b2 := SameButGivers.setMeta h1 mo.giver
  have h2 : ((s.setMeta o (some { mo with giver := mc.giver })).setMeta c (some { mc with giver := mo.giver })).sched o = some { mo with giver := mc.giver } := by
    rw [setMeta_other _ _ hne, setMeta_same]
  obtain ⟨t1, x1, x2, x3, x4, x5, x6, x7⟩ := fixGiver_spec h2
  have h3 : t1.sched c = some { mc with giver := mo.giver } := by rw [x5 c hne.symm, setMeta_same]
  obtain ⟨t, y1, y2, y3, y4, y5, y6, y7⟩ := fixGiver_spec h3
  have bb := ((b1.trans b2).trans x2).trans y2
  obtain ⟨f1, f2, f3, f4⟩ := bb.facts
  -- the request of `c` in between
  have hwc : t1.wsched c = s.wsched c := by
    by_cases e : mc.giver = some c
    · have e1 := x6 c e
      rw [e1]
      show (s.wsched c).map _ = s.wsched c
      cases hw : s.wsched c with
      | none => rfl
      | some w => exact absurd hw (hgc w e)
    · rw [x7 c e]; rfl
  refine ⟨t, by rw [x1, Option.bind_some]; exact y1, bb.rest, f1, f2, f3, f4, ?_, ?_, ?_, ?_, ?_, ?_⟩
  · rw [y3]
    show (mo.giver.bind fun g => (t1.wsched g).map fun _ => g) = _
    rw [hgo, Option.bind_some, hwc]
  · rw [y4 o hne, x3, gvr_of hc]; rfl
  · intro i i1 i2
    rw [y4 i i1, x4 i i2, gvr_setMeta, if_neg i1, gvr_setMeta, if_neg i2]
  · rw [y6 c hgo, hwc]
  · intro g hg hgne
    rw [gvr_of hc] at hg
    rw [y7 g (by show mo.giver ≠ some g; rw [hgo]; intro hx; cases hx; exact hgne rfl), x6 g hg]; rfl
  · intro g hgne hg
    rw [gvr_of hc] at hg
    rw [y7 g (by show mo.giver ≠ some g; rw [hgo]; intro hx; cases hx; exact hgne rfl), x7 g hg]; rfl

theorem detach_clean (E : Env D) {s : St D} {c p : Nat} (hp : (s.b.blocks c).int = some p) (hr : (s.b.blocks c).refs = 0) (hd : (s.b.blocks c).dirty = false) :
    detach E s c = some (p, s.setBlk c { s.b.blocks c with int := none }) := by
  unfold detach Swap.detach Swap.clean
  simp only [SB.isEvictable, SB.isAcquired, SB.isInternal, hp, hr, hd]
  simp [hp, hr, hd, St.setBlk]

theorem attach_ok {s : St D} {c : Nat} (p : Option Nat) (h : (s.b.blocks c).int = none) : attach s c p = some (s.setBlk c { s.b.blocks c with int := p }) := by
  unfold attach; simp [St.blk, SB.isInternal, h]

@[simp] theorem setBlk_b_same (s : St D) (c : Nat) (x : SB) : (s.setBlk c x).b.blocks c = x := by simp [St.setBlk, Swap.St.set]
theorem setBlk_b_other (s : St D) {c i : Nat} (x : SB) (h : i ≠ c) : (s.setBlk c x).b.blocks i = s.b.blocks i := by simp [St.setBlk, Swap.St.set, h]

theorem swapInternal_spec (E : Env D) {s t : St D} {c o p q : Nat} (hg : GSwapped s t c o) (hne : o ≠ c) (hp : (s.b.blocks c).int = some p) (hrc : (s.b.blocks c).refs = 0)
    (hdc : (s.b.blocks c).dirty = false) (hq : (s.b.blocks o).int = some q) (hro : (s.b.blocks o).refs = 0) (hdo : (s.b.blocks o).dirty = false) (hrs : rsv s o = none) :
    ∃ u, swapInternal E t c o = some u ∧ Swapped s u c o p q := by
  have htb : t.b = s.b := by rw [hg.same]
  have hd1 := detach_clean E (s := t) (c := c) (p := p) (by rw [htb]; exact hp) (by rw [htb]; exact hrc) (by rw [htb]; exact hdc)
  have hbo : (t.setBlk c { t.b.blocks c with int := none }).b.blocks o = s.b.blocks o := by rw [setBlk_b_other _ _ hne, htb]
  have hd2 := detach_clean E (s := t.setBlk c { t.b.blocks c with int := none }) (c := o) (p := q) (by rw [hbo]; exact hq) (by rw [hbo]; exact hro) (by rw [hbo]; exact hdo)
  unfold swapInternal
  rw [hd1, Option.bind_some, hd2, Option.bind_some]
  simp only
  rw [attach_ok _ (by rw [setBlk_b_other _ _ hne.symm, setBlk_b_same]), Option.bind_some, attach_ok _ (by rw [setBlk_b_other _ _ hne, setBlk_b_same])]
  refine ⟨_, rfl, ?_⟩
  have e : t = { s with sched := t.sched, wsched := t.wsched } := hg.same
  refine ⟨?_, ?_, ?_, ?_, by rw [e]; rfl, by rw [e]; rfl, by rw [e]; rfl, by rw [e]; rfl, by rw [e]; rfl, by rw [e]; rfl, ?_, ?_, hg.rrq, hg.opsOf, hg.opsNe, hg.gc, hg.go, hg.gx, hg.wc, hg.wg, hg.wx⟩
  · rw [e]; rfl
  · rw [setBlk_b_other _ _ hne.symm, setBlk_b_same, setBlk_b_other _ _ hne.symm, setBlk_b_same, htb]
  · rw [setBlk_b_same, setBlk_b_other _ _ hne, setBlk_b_same, hbo, hq]; rfl
  · intro i i1 i2
    rw [setBlk_b_other _ _ i2, setBlk_b_other _ _ i1, setBlk_b_other _ _ i2, setBlk_b_other _ _ i1, htb]
  · show rsv t o = _; rw [hg.rsv, hrs]; rfl
  · intro i _; exact hg.rsv i

theorem swapReserved_spec (E : Env D) {s t : St D} {c o p q : Nat} (hg : GSwapped s t c o) (hne : o ≠ c) (hp : (s.b.blocks c).int = some p) (hrc : (s.b.blocks c).refs = 0)
    (hdc : (s.b.blocks c).dirty = false) (hio : (s.b.blocks o).int = none) (hrs : rsv s o = some q) :
    ∃ u, swapReserved E t c o = some u ∧ Swapped s u c o p q := by
  have htb : t.b = s.b := by rw [hg.same]
  have hd1 := detach_clean E (s := t) (c := c) (p := p) (by rw [htb]; exact hp) (by rw [htb]; exact hrc) (by rw [htb]; exact hdc)
  obtain ⟨mo, hmo, hmr⟩ := sched_of_rsv (s := t) (c := o) (g := q) (by rw [hg.rsv]; exact hrs)
  unfold swapReserved
  rw [hd1, Option.bind_some]
  simp only
  have e1 : (t.setBlk c { t.b.blocks c with int := none }).sched o = some mo := hmo
  rw [e1]
  simp only
  rw [attach_ok _ (by rw [setBlk_b_same]), Option.bind_some]
  have e2 : ((t.setBlk c { t.b.blocks c with int := none }).setBlk c { (t.setBlk c { t.b.blocks c with int := none }).b.blocks c with int := mo.reserved }).sched o = some mo := hmo
  rw [e2]
  refine ⟨_, rfl, ?_⟩
  have e : t = { s with sched := t.sched, wsched := t.wsched } := hg.same
  refine ⟨?_, ?_, ?_, ?_, by rw [e]; rfl, by rw [e]; rfl, by rw [e]; rfl, by rw [e]; rfl, by rw [e]; rfl, by rw [e]; rfl, ?_, ?_, ?_, ?_, ?_, ?_, ?_, ?_, hg.wc, hg.wg, hg.wx⟩
  · rw [e]; rfl
  · show (((t.setBlk c _).setBlk c _).b.blocks c) = _
    rw [setBlk_b_same, setBlk_b_same, hmr, htb]
  · show (((t.setBlk c _).setBlk c _).b.blocks o) = _
    rw [setBlk_b_other _ _ hne, setBlk_b_other _ _ hne, htb, hio]
    show s.b.blocks o = { s.b.blocks o with int := none }
    rw [← hio]
  · intro i i1 i2
    show (((t.setBlk c _).setBlk c _).b.blocks i) = _
    rw [setBlk_b_other _ _ i1, setBlk_b_other _ _ i1, htb]
  · rw [rsv_setMeta, if_pos rfl, hrs]; rfl
  · intro i hi; rw [rsv_setMeta, if_neg hi]; exact hg.rsv i
  · intro i; rw [rrq_setMeta]; split
    · rename_i x; subst x; rw [← hg.rrq, rrq_of hmo]
    · exact hg.rrq i
  · intro i; rw [opsOf_setMeta]; split
    · rename_i x; subst x; rw [← hg.opsOf, opsOf_of hmo]
    · exact hg.opsOf i
  · intro d m hm
    by_cases x : d = o
    · subst x; rw [setMeta_same] at hm; cases hm; exact hg.opsNe d mo hmo
    · rw [setMeta_other _ _ x] at hm; exact hg.opsNe d m hm
  · rw [gvr_setMeta, if_neg hne.symm]; exact hg.gc
  · rw [gvr_setMeta, if_pos rfl]
    show mo.giver = _
    rw [← gvr_of hmo]; exact hg.go
  · intro i i1 i2; rw [gvr_setMeta, if_neg i2]; exact hg.gx i i1 i2

/-! ### `schedule_read` -/

theorem Inv.giver_ne {dflt : D} {a : Abs D} {k : Ctx} {v : Swap.St D} {s : St D} (h : Inv dflt a k v s) {c o : Nat} (hgo : gvr s o = some c) (hne : o ≠ c) :
    ∀ w, gvr s c = some c → s.wsched c ≠ some w := by
  intro w h1 h2
  have h3 := h.io.gvrW o c w hgo h2
  have h4 := h.io.gvrW c c w h1 h2
  rw [h3] at h4; exact hne (Option.some.inj h4)

/-- The exchange with another block whose read has not begun. -/
theorem exchange_ok (E : Env D) {dflt : D} {a : Abs D} {k : Ctx} {v : Swap.St D} {s : St D} (h : Inv dflt a k v s) {c o q : Nat}
    (hd : k.due c) (hdo : k.due o) (hne : o ≠ c) (hrc : rrq s c = none) (hro : rrq s o = none) (hgo : gvr s o = some c)
    (hq : (s.b.blocks o).int = some q) (hmq : ∀ e, (s.b.blocks c).ext = some e → s.b.mem q = v.disk e)
    (hgw : ∀ g w, gvr s c = some g → s.wsched g = some w → w.shallRead = false) (hcw : ∀ w, s.wsched c = some w → w.shallRead = false) :
    ∃ t u v', swapGivers s c o = some t ∧ swapInternal E t c o = some u ∧ Inv dflt a { k with due := fun i => k.due i ∧ i ≠ c } v' u ∧ FrR s u ∧
      (s.wsched o = none → u.wsched o = none) ∧ rrq u o = none := by
  obtain ⟨d1, d2, d3, d4, d5⟩ := h.io.dueOk c hd
  obtain ⟨e1, e2, e3, e4, e5⟩ := h.io.dueOk o hdo
  obtain ⟨p, hp⟩ := Option.ne_none_iff_exists'.1 d1
  obtain ⟨mc, hmc⟩ := h.sched_some d5.hasAcq
  obtain ⟨mo, hmo⟩ := h.sched_some e5.hasAcq
  have hx : ∀ w, mc.giver = some c → s.wsched c ≠ some w := by
    intro w hc; exact h.giver_ne hgo hne w (by rw [gvr_of hmc]; exact hc)
  obtain ⟨t, t1, t2⟩ := swapGivers_spec hmc hmo hne (by rw [← gvr_of hmo]; exact hgo) hx
  have hrs : rsv s o = none := by
    cases hz : rsv s o with
    | none => rfl
    | some x => exact absurd (h.plan.rsvAcq o x hz).1 e1
  obtain ⟨u, u1, u2⟩ := swapInternal_spec E t2 hne hp d2 d3 hq e2 e3 hrs
  have hb : bufOf s o = some q := by unfold bufOf; rw [hq]; rfl
  obtain ⟨v', hv⟩ := swap_ok h u2 hd hne hrc hro hgo hb hp hmq (fun _ => hdo) hgw hcw
  refine ⟨t, u, v', t1, u1, hv, u2.frR hp, fun hw => ?_, by rw [u2.rrq]; exact hro⟩
  by_cases x : gvr s c = some o
  · rw [u2.wg o x hne, hw]; rfl
  · rw [u2.wx o hne x]; exact hw

theorem exchangeReserved_ok (E : Env D) {dflt : D} {a : Abs D} {k : Ctx} {v : Swap.St D} {s : St D} (h : Inv dflt a k v s) {c o q : Nat}
    (hd : k.due c) (hne : o ≠ c) (hrc : rrq s c = none) (hgo : gvr s o = some c) (hio : (s.b.blocks o).int = none)
    (hq : rsv s o = some q) (hmq : ∀ e, (s.b.blocks c).ext = some e → s.b.mem q = v.disk e)
    (hgw : ∀ g w, gvr s c = some g → s.wsched g = some w → w.shallRead = false) (hcw : ∀ w, s.wsched c = some w → w.shallRead = false) :
    ∃ t u v', swapGivers s c o = some t ∧ swapReserved E t c o = some u ∧ Inv dflt a { k with due := fun i => k.due i ∧ i ≠ c } v' u ∧ FrR s u := by
  obtain ⟨d1, d2, d3, d4, d5⟩ := h.io.dueOk c hd
  obtain ⟨p, hp⟩ := Option.ne_none_iff_exists'.1 d1
  obtain ⟨mc, hmc⟩ := h.sched_some d5.hasAcq
  obtain ⟨mo, hmo, _⟩ := sched_of_rsv hq
  have hx : ∀ w, mc.giver = some c → s.wsched c ≠ some w := by
    intro w hc; exact h.giver_ne hgo hne w (by rw [gvr_of hmc]; exact hc)
  obtain ⟨t, t1, t2⟩ := swapGivers_spec hmc hmo hne (by rw [← gvr_of hmo]; exact hgo) hx
  obtain ⟨u, u1, u2⟩ := swapReserved_spec E t2 hne hp d2 d3 hio hq
  have hb : bufOf s o = some q := by unfold bufOf; rw [hio, hq]; rfl
  have hro : rrq s o = none := by
    cases hz : rrq s o with
    | none => rfl
    | some x => exact absurd hio (h.io.rrqOk o x hz).1
  obtain ⟨v', hv⟩ := swap_ok h u2 hd hne hrc hro hgo hb hp hmq (fun hc => absurd hio hc) hgw hcw
  exact ⟨t, u, v', t1, u1, hv, u2.frR hp⟩

theorem scheduleRead_none (E : Env D) (fuel : Nat) {s : St D} {c : Nat} (h : s.wsched c = none) : scheduleRead E (fuel + 1) s c = readOwn s c := by
  rw [scheduleRead, h]

theorem scheduleRead_ok (E : Env D) (fuel : Nat) {dflt : D} {a : Abs D} {k : Ctx} {v : Swap.St D} {s : St D} (h : Inv dflt a k v s) {c : Nat}
    (hd : ∀ i, k.due i ↔ i = c) (hrc : rrq s c = none) (hgw : ∀ g w, gvr s c = some g → s.wsched g = some w → w.shallRead = false) :
    ∃ s' v', scheduleRead E (fuel + 2) s c = some s' ∧ Inv dflt a { k with due := fun _ => False } v' s' ∧ FrR s s' := by
  have hdc : k.due c := (hd c).2 rfl
  obtain ⟨d1, d2, d3, d4, d5⟩ := h.io.dueOk c hdc
  cases hwc : s.wsched c with
  | none =>
    obtain ⟨s', h1, h2, h3⟩ := readOwn_ok h hdc hwc hrc
    refine ⟨s', v, by rw [scheduleRead_none E _ hwc]; exact h1, ?_, h3.frR⟩
    exact h2.dueCongr _ fun i => by simp only [iff_false]; rintro ⟨x, y⟩; exact y ((hd i).1 x)
  | some w =>
    rcases (h.io.wOk c w hwc).2.2 with ⟨_, ⟨_, b2, _⟩ | ⟨o, b1, b2, b3, b4, b5, b6, b7⟩⟩ | st
    · exact absurd hdc b2
    rotate_left
    · exact absurd hdc st.2.2.2.1
    · rw [scheduleRead, hwc]
      simp only [b1]
      have hext := (h.io.wOk c w hwc).1
      by_cases hsr : w.shallRead = true
      · rw [if_pos hsr]
        obtain ⟨c1, c2, c3, c4, c5, c6⟩ := b6 hsr
        have hgr : (s.b.blocks o).refs = 0 ∧ First k.S o := by
          rcases (h.io.gvrOk o c b3).2.2.2 with hx | hx
          · obtain ⟨p, hq⟩ := Option.ne_none_iff_exists'.1 hx
            exact absurd (h.plan.rsvAcq o p hq).1 c2
          · exact hx.2
        have h1 := h.addDue (fun i => k.due i ∨ i = o) (fun i hi => .inl hi) (fun i hi hni => by
          rcases hi with hi | rfl
          · exact absurd hi hni
          · exact ⟨c3, fun _ => ⟨c, w, b3, hwc, hsr⟩, c2, hgr.1, c5, c4, hgr.2⟩)
        have h2 := flag_ok (k := { k with due := fun i => k.due i ∨ i = o }) h1 false (.inr rfl) hwc b3 c3
        have ew : ({ w with target := o, taker := some o, shallRead := false } : Wrr) = { w with taker := some o, shallRead := false } := by rw [← c1]
        rw [ew] at h2
        obtain ⟨s1, s1a, s1b, s1c⟩ := sync_ok h2
        obtain ⟨ph, s1d⟩ := s1c.wSome (setWrr_same s c _)
        rw [s1a, Option.bind_some, s1d]
        simp only
        have hgo1 : gvr s1 o = some c := by rw [s1c.gvr]; exact b3
        have hwo1 : s1.wsched o = none := (s1c.wNone o).2 (by rw [setWrr_other _ _ b2]; exact c3)
        have hb1 : s1.b.blocks = s.b.blocks := s1c.blocks
        have hio1 : (s1.b.blocks o).int = some w.buf := by
          rw [hb1]
          unfold bufOf at b4
          obtain ⟨p, hp⟩ := Option.ne_none_iff_exists'.1 c2
          rw [hp] at b4 ⊢; exact b4
        have hrc1 : rrq s1 c = none := by
          cases hz : rrq s1 c with
          | none => rfl
          | some r => have := (s1b.io.rrqOk c r hz).2.2.2.2.2.1; rw [s1d] at this; cases this
        have hgne : ∀ g, gvr s c = some g → g ≠ c := by
          rintro g hg rfl; exact h.giver_ne b3 b2 w hg hwc
        have hgw1 : ∀ g w', gvr s1 c = some g → s1.wsched g = some w' → w'.shallRead = false := by
          intro g w' hg hw'
          rw [s1c.gvr] at hg
          have hg : gvr s c = some g := hg
          have hgc := hgne g hg
          cases hwg : s.wsched g with
          | none => rw [(s1c.wNone g).2 (by rw [setWrr_other _ _ hgc]; exact hwg)] at hw'; cases hw'
          | some w2 =>
            obtain ⟨ph2, hw2⟩ := s1c.wSome (show (s.setWrr c _).wsched g = some w2 by rw [setWrr_other _ _ hgc]; exact hwg)
            rw [hw2] at hw'; cases hw'
            exact hgw g w2 hg hwg
        -- the end: the read of `o`
        have fin : ∀ (s2 : St D) (v2 : Swap.St D), Inv dflt a { k with due := fun i => k.due i ∨ i = o } v2 s2 → FrR s s2 → rrq s2 c = none → rrq s2 o = none → gvr s2 o = some c →
            (s2.b.blocks o).int = some w.buf → (∀ e, (s2.b.blocks c).ext = some e → s2.b.mem w.buf = v2.disk e) →
            (∀ g w', gvr s2 c = some g → s2.wsched g = some w' → w'.shallRead = false) → (∀ w', s2.wsched c = some w' → w'.shallRead = false) → s2.wsched o = none →
            ∃ s' v', ((swapGivers s2 c o).bind fun s3 => (swapInternal E s3 c o).bind fun s4 => scheduleRead E (fuel + 1) s4 o) = some s' ∧
              Inv dflt a { k with due := fun _ => False } v' s' ∧ FrR s s' := by
          intro s2 v2 i1 i2 i3 i4 i5 i6 i7 i8 i9 i10
          obtain ⟨t, u, v', t1, t2, t3, t4, t5, t6⟩ := exchange_ok E i1 (.inl hdc) (.inr rfl) b2 i3 i4 i5 i6 i7 i8 i9
          obtain ⟨s', x1, x2, x3⟩ := readOwn_ok t3 (c := o) ⟨.inr rfl, b2⟩ (t5 i10) t6
          refine ⟨s', v', ?_, ?_, (i2.trans t4).trans x3.frR⟩
          · rw [t1, Option.bind_some, t2, Option.bind_some, scheduleRead_none E _ (t5 i10)]; exact x1
          · exact x2.dueCongr _ fun i => by
              simp only [iff_false]
              rintro ⟨⟨x | x, y⟩, z⟩
              · exact y ((hd i).1 x)
              · exact z x
        split
        · obtain ⟨s2, s2a, s2b, s2c, s2d, s2e, s2f, s2g⟩ := waitWrite_ok s1b c
          have hwo2 : s2.wsched o = none := by
            have := s2e o b2; rw [hwo1] at this
            cases hx : s2.wsched o with
            | none => rfl
            | some x => rw [hx] at this; cases this
          have hgo2 : gvr s2 o = some c := by rw [s2c.gvr]; exact hgo1
          have hfr2 : FrR s s2 := ((FrW.setWrr s c _).trans (s1c.toFr0.trans s2c).frW).frR
          obtain ⟨mo, hmo⟩ := s2b.sched_some hgr.2.hasAcq
          rw [s2a, Option.bind_some, hmo]
          simp only
          split
          · rename_i hrs
            have hro2 : rrq s2 o ≠ none := by rw [rrq_of hmo]; intro hx; rw [hx] at hrs; cases hrs
            have h3 := s2b.dropDue k.due (fun i hi => .inl hi) (fun i hi hni => by
              rcases hi with hi | rfl
              · exact absurd hi hni
              · refine ⟨hwo2, fun g w' hg hw' => ?_, fun hx => absurd hx hro2⟩
                rw [hgo2] at hg; cases hg; rw [s2d] at hw'; cases hw')
            obtain ⟨s', x1, x2, x3⟩ := readOwn_ok h3 (c := c) hdc s2d (s2g _ s1d)
            refine ⟨s', v, x1, ?_, hfr2.trans x3.frR⟩
            exact x2.dueCongr _ fun i => by
              simp only [iff_false]
              rintro ⟨x, y⟩; exact y ((hd i).1 x)
          · rename_i hrs
            have hro2 : rrq s2 o = none := by rw [rrq_of hmo]; simpa using hrs
            refine fin s2 v s2b hfr2 (s2g _ s1d) hro2 hgo2 (by rw [s2c.blocks]; exact hio1) (fun e he => ?_) (fun g w' hg hw' => ?_) (fun w' hw' => by rw [s2d] at hw'; cases hw') hwo2
            · rw [s2c.blocks, hb1, hext] at he; cases he
              have e2 := s2f _ s1d fun m hm => by
                have hm : some o = some m := hm
                cases hm; exact hro2
              exact e2
            · rw [s2c.gvr] at hg
              have hgc : g ≠ c := hgne g (by rw [s1c.gvr] at hg; exact hg)
              have e1 := s2e g hgc
              rw [hw'] at e1
              cases hw1 : s1.wsched g with
              | none => rw [hw1] at e1; cases e1
              | some w1 =>
                rw [hw1] at e1
                simp only [Option.map_some, Option.some.injEq, Wrr.mk.injEq] at e1
                rw [e1.2.1]; exact hgw1 g w1 hg hw1
        · rename_i hds
          have hnh : ph ≠ .handled := by rintro rfl; exact absurd rfl hds
          have hro1 : rrq s1 o = none := s1b.idle_taker s1d hnh o rfl
          refine fin s1 v s1b ((FrW.setWrr s c _).trans s1c.toFr0.frW).frR hrc1 hro1 hgo1 hio1 (fun e he => ?_) hgw1 (fun w' hw' => by rw [s1d] at hw'; cases hw'; rfl) hwo1
          rw [hb1, hext] at he; cases he
          have e2 := s1b.view.intact c _ s1d (s1b.idle_taker s1d hnh)
          exact e2
      · rw [if_neg hsr]
        have hsr : w.shallRead = false := by simpa using hsr
        have hio : (s.b.blocks o).int = none := by
          cases hz : (s.b.blocks o).int with
          | none => rfl
          | some x =>
            rcases b7 (by rw [hz]; simp) with hx | hx
            · rw [hsr] at hx; cases hx
            · exact absurd ((hd o).1 hx) b2
        have hq : rsv s o = some w.buf := by unfold bufOf at b4; rw [hio] at b4; exact b4
        obtain ⟨t, u, v', t1, t2, t3, t4⟩ := exchangeReserved_ok E h hdc b2 hrc b3 hio hq (fun e he => by
          rw [hext] at he; cases he
          refine h.view.intact c w hwc fun m hm => ?_
          rw [b1] at hm; cases hm
          cases hz : rrq s o with
          | none => rfl
          | some x => exact absurd hio (h.io.rrqOk o x hz).1) hgw (fun w' hw' => by rw [hwc] at hw'; cases hw'; exact hsr)
        refine ⟨u, v', by rw [t1, Option.bind_some]; exact t2, ?_, t4⟩
        exact t3.dueCongr _ fun i => by simp only [iff_false]; rintro ⟨x, y⟩; exact y ((hd i).1 x)

end Foxxll.Ahead
