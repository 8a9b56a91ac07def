import Verif.Proofs.AheadLoop

set_option linter.unusedSimpArgs false
set_option linter.unusedVariables false
set_option linter.unusedSectionVars false

/-
offline_lru_prefetching: a change of one block that no transfer is about.
-/
namespace Foxxll.Ahead
open Foxxll.Swap (SB Env POp Elem Op Res Abs Allowed Expected)

variable {D : Type} [Slack D]

/-- What a change of block `c` leaves alone. -/
structure Touched (s t : St D) (c : Nat) : Prop where
  wsched : t.wsched = s.wsched
  reads : t.reads = s.reads
  reqs : t.reqs = s.reqs
  next : t.next = s.next
  gvr : ∀ i, gvr t i = gvr s i
  rrq : ∀ i, rrq t i = rrq s i
  rsv : ∀ i, i ≠ c → rsv t i = rsv s i
  blocks : ∀ i, i ≠ c → t.b.blocks i = s.b.blocks i
  disk : t.b.disk = s.b.disk

theorem touch_ok {dflt : D} {a a' : Abs D} {k k' : Ctx} {v v' : Swap.St D} {s t : St D} {c : Nat} (h : Inv dflt a k v s) (hT : Touched s t c)
    (hrc : rrq s c = none) (hwc : ∀ w, s.wsched c = some w → (t.b.blocks c).ext = some w.ext ∧ (t.b.blocks c).dirty = false ∧ Stray k' t c w) (hstp : k'.stop = k.stop)
    (hgc : ∀ d, gvr s d = some c → (t.b.blocks c).dirty = false ∧ (t.b.blocks c).refs = 0 ∧ (Before k.S d c → Before k'.S d c)) (hdue : ∀ i, ¬ k.due i) (hdue' : ∀ i, ¬ k'.due i)
    (hg : ∀ g, gvr s c = some g → rsv t c = rsv s c ∧ (s.b.blocks c).int = none ∧ (t.b.blocks c).int = none ∧ (Before k.S c g → Before k'.S c g))
    (hops : ∀ i, i ≠ c → opsIn k'.S i = opsIn k.S i) (hbef : ∀ d g, d ≠ c → g ≠ c → Before k.S d g → Before k'.S d g)
    (hsw : Swap.Inv dflt v' a') (hbase : Base k' v' t) (hplan : Plan k' t) (hdisk : v'.disk = v.disk)
    (hmem : ∀ p, (v'.mem p = v.mem p ∧ t.b.mem p = s.b.mem p) ∨ (v'.mem p = t.b.mem p ∧ ∀ i, i ≠ c ∨ gvr s c ≠ none → bufOf s i ≠ some p)) :
    Inv dflt a' k' v' t := by
  have hfst : ∀ i, i ≠ c → First k.S i → First k'.S i := by
    intro i hi h1; unfold First at h1 ⊢; rw [hops i hi]; exact h1
  have hbuf : ∀ m g, gvr s m = some g → bufOf t m = bufOf s m := by
    intro m g hm
    unfold bufOf
    by_cases e : m = c
    · subst e
      obtain ⟨a1, a2, a3, _⟩ := hg g hm
      rw [a1, a2, a3]
    · rw [hT.blocks m e, hT.rsv m e]
  have hrdg : ∀ i, Rdg k' t i ↔ Rdg k s i := by
    intro i; unfold Rdg
    rw [hT.rrq, hT.gvr, hT.reads, hT.wsched]
    simp only [hdue, hdue', false_or]
  have hrdc : ∀ i, Rdg k s i → (s.b.blocks i).int ≠ none → i ≠ c := by
    rintro i h1 hint rfl
    rcases h1 with ⟨r, h1, _⟩ | ⟨_, h1 | ⟨g, w, h1, _⟩⟩
    · rw [hrc] at h1; cases h1
    · exact hdue _ h1
    · exact hint (hg g h1).2.1
  refine ⟨hsw, hbase, hplan, ?_, ?_⟩
  · refine ⟨fun d r hr => ?_, by simp only [hT.rrq]; exact h.io.rrqInj, by simp only [hT.rrq, hT.gvr, hT.wsched]; exact h.io.rrqW, fun x hx => ?_, by rw [hT.reads]; exact h.io.rdNd,
      fun d g hd => ?_, by simp only [hT.gvr, hT.wsched]; exact h.io.gvrW, fun g w hw => ?_, fun d hd => absurd hd (hdue' d)⟩
    · rw [hT.rrq] at hr
      have hne : d ≠ c := by rintro rfl; rw [hrc] at hr; cases hr
      rw [hT.blocks d hne, hT.wsched, hT.reqs]
      obtain ⟨a1, a2, a3, a4, a5, a6⟩ := h.io.rrqOk d r hr
      exact ⟨a1, a2, a3, a4, hfst d hne a5, a6⟩
    · rw [hT.reads] at hx
      obtain ⟨d, a1, a2, a3⟩ := h.io.rdOk x hx
      have hne : d ≠ c := by rintro rfl; rw [hrc] at a1; cases a1
      exact ⟨d, by rw [hT.rrq]; exact a1, by rw [hT.blocks d hne]; exact a2, by rw [hT.blocks d hne]; exact a3⟩
    · rw [hT.gvr] at hd
      obtain ⟨a1, a2, a3, a5⟩ := h.io.gvrOk d g hd
      have hgb : (t.b.blocks g).dirty = false ∧ (t.b.blocks g).refs = 0 := by
        by_cases e : g = c
        · subst e; exact ⟨(hgc d hd).1, (hgc d hd).2.1⟩
        · rw [hT.blocks g e]; exact ⟨a2, a3⟩
      by_cases e : d = c
      · subst e
        obtain ⟨b1, b2, b3, b4⟩ := hg g hd
        refine ⟨b4 a1, hgb.1, hgb.2, .inl ?_⟩
        rw [b1]
        rcases a5 with a5 | a5
        · exact a5
        · exact absurd b2 a5.1
      · rw [hT.rsv d e, hT.blocks d e]
        refine ⟨?_, hgb.1, hgb.2, a5.imp id fun z => ⟨z.1, z.2.1, hfst d e z.2.2⟩⟩
        by_cases e2 : g = c
        · subst e2; exact (hgc d hd).2.2 a1
        · exact hbef d g e e2 a1
    · rw [hT.wsched] at hw
      by_cases hne : g = c
      · subst hne; obtain ⟨x1, x2, x3⟩ := hwc w hw; exact ⟨x1, x2, .inr x3⟩
      obtain ⟨a1, a2, hh⟩ := h.io.wOk g w hw
      rw [hT.blocks g hne]
      rcases hh.symm with st | ⟨a3, a4⟩
      · exact ⟨a1, a2, .inr (st.of rfl rfl (fun hc => absurd hc (hdue' g)) hstp ⟨[], by rw [hops g hne]; simp⟩ (by rw [hT.blocks g hne]; exact .inl))⟩
      refine ⟨a1, a2, .inl ⟨a3, ?_⟩⟩
      rcases a4 with ⟨b1, b2, b3, b4⟩ | ⟨m, b1, b2, b3, b4, b5, b6, b7⟩
      · refine .inl ⟨by rw [hT.blocks g hne]; exact b1, hdue' g, b3, ?_⟩
        rw [hT.next, hops g hne, hT.gvr]; exact b4
      · refine .inr ⟨m, b1, b2, by rw [hT.gvr]; exact b3, by rw [hbuf m g b3]; exact b4, .inl ?_, fun hs => ?_, fun hi => ?_⟩
        · rw [hT.blocks g hne]
          rcases b5 with b5 | b5
          · exact b5
          · exact absurd b5 (hdue g)
        · obtain ⟨c1, c2, c3, c4, c5, c6⟩ := b6 hs
          have hm : m ≠ c := by rintro rfl; exact c2 (hg g b3).2.1
          rw [hT.blocks m hm, hT.wsched, hT.rrq]
          refine ⟨c1, c2, c3, c4, c5, fun hp => ?_⟩
          rcases c6 hp with c6 | c6
          · exact .inl c6
          · exact absurd c6 (hdue m)
        · have hm : m ≠ c := by rintro rfl; exact hi (hg g b3).2.2.1
          rw [hT.blocks m hm] at hi
          rcases b7 hi with b7 | b7
          · exact .inl b7
          · exact absurd b7 (hdue m)
  · refine ⟨fun g w hw ht => ?_, fun e he => ?_, fun i p e hi h1 h2 => ?_, fun p hp => ?_⟩
    · rw [hT.wsched] at hw
      simp only [hT.rrq] at ht
      by_cases hne : g = c
      · subst hne; exact Slack.one (hwc w hw).2.2.1 _ _
      have h1 := h.view.intact g w hw ht
      by_cases hst : Stray k s g w
      · exact Slack.one hst.1 _ _
      rw [hdisk]
      rcases hmem w.buf with ⟨_, h2⟩ | ⟨_, h2⟩
      · rw [h2]; exact h1
      · exfalso
        obtain ⟨a1, a2, hh⟩ := h.io.wOk g w hw
        rcases hh.symm with st | ⟨_, a4⟩
        · exact hst st
        rcases a4 with ⟨b1, _⟩ | ⟨m, b1, b2, b3, b4, b5, b6, b7⟩
        · exact h2 g (.inl hne) (by unfold bufOf; rw [b1]; rfl)
        · refine h2 m ?_ b4
          by_cases e : m = c
          · subst e; right; rw [b3]; simp
          · exact .inl e
    · rw [hT.wsched] at he; rw [hdisk, hT.disk]; exact h.view.vdN e he
    · rw [hrdg] at hi
      have hne : i ≠ c := by
        rintro rfl
        rcases hi with ⟨r, h3, _⟩ | ⟨_, h3 | ⟨g, w, h3, _⟩⟩
        · rw [hrc] at h3; cases h3
        · exact hdue _ h3
        · rw [(hg g h3).2.2.1] at h1; cases h1
      rw [hT.blocks i hne] at h1 h2
      rw [hdisk]
      rcases hmem p with ⟨h3, _⟩ | ⟨_, h3⟩
      · rw [h3]; exact h.view.vmR i p e hi h1 h2
      · exact absurd (show bufOf s i = some p by unfold bufOf; rw [h1]; rfl) (h3 i (.inl hne))
    · rcases hmem p with ⟨h3, h4⟩ | ⟨h3, _⟩
      · rw [h3, h4]
        refine h.view.vmN p fun i hi hr => ?_
        have hne := hrdc i hr (by rw [hi]; simp)
        exact hp i (by rw [hT.blocks i hne]; exact hi) ((hrdg i).2 hr)
      · exact h3

/-- The operation in progress is done. -/
theorem opDone_ok {dflt : D} {a : Abs D} {k : Ctx} {v : Swap.St D} {s : St D} {x : Elem} (h : Inv dflt a k v s) (hc : k.cur = some x) :
    ∃ s', opDone s x.id = some s' ∧ Inv dflt a { k with cur := none } v s' ∧ s'.b = s.b ∧ s'.pred = s.pred ∧ s'.next = s.next ∧ s'.freeEv = s.freeEv ∧
      (∀ i, rsv s' i = rsv s i) := by
  have hops := h.plan.ops x.id
  rw [hc] at hops
  simp only [curOps, if_true] at hops
  obtain ⟨m, hm⟩ : ∃ m, s.sched x.id = some m := by
    cases hz : s.sched x.id with
    | none => simp [opsOf, hz] at hops
    | some m => exact ⟨m, rfl⟩
  rw [opsOf_of hm] at hops
  -- the new state, with the same transfers
  have key : ∀ t : St D, t = s.setMeta x.id (t.sched x.id) → (∀ i, rsv t i = rsv s i) → (∀ i, gvr t i = gvr s i) → (∀ i, rrq t i = rrq s i) → opsOf t x.id = opsIn k.S x.id →
      (∀ m', t.sched x.id = some m' → m'.ops ≠ []) →
      Inv dflt a { k with cur := none } v t ∧ t.b = s.b ∧ t.pred = s.pred ∧ t.next = s.next ∧ t.freeEv = s.freeEv := by
    intro t ht trsv tgvr trrq tops tne
    have tb : t.b = s.b := by rw [ht]; rfl
    have tw : t.wsched = s.wsched := by rw [ht]; rfl
    have treads : t.reads = s.reads := by rw [ht]; rfl
    have treqs : t.reqs = s.reqs := by rw [ht]; rfl
    have tn : t.next = s.next := by rw [ht]; rfl
    have tf : t.freeEv = s.freeEv := by rw [ht]; rfl
    have tse : t.schedEv = s.schedEv := by rw [ht]; rfl
    have tsc : ∀ i, i ≠ x.id → t.sched i = s.sched i := by
      intro i hi; rw [ht]; exact setMeta_other _ _ hi
    have tbuf : ∀ i, bufOf t i = bufOf s i := fun i => by unfold bufOf; rw [tb, trsv]
    have hrd : ∀ i, Rdg { k with cur := none } t i ↔ Rdg k s i := by
      intro i; unfold Rdg; rw [trrq, tgvr, treads, tw]
    refine ⟨⟨h.sw, ?_, ?_, ?_, ?_⟩, tb, by rw [ht]; rfl, tn, tf⟩
    · exact ⟨by rw [tb]; exact h.base.blocks, by rw [tb]; exact h.base.n, by rw [tb]; exact h.base.held, by rw [tb]; exact h.base.next, by rw [tb]; exact h.base.remaining,
        by rw [tb]; exact h.base.max, by simp only [tb, trsv]; exact h.base.vfree, by rw [tb]; exact h.base.freeNd, by simp only [tb, trsv]; exact h.base.rsvFree,
        by simp only [trsv]; exact h.base.rsvInj, by rw [tf, tse]; exact h.base.vev, by rw [tf, tse]; exact h.base.disj⟩
    · refine ⟨fun c => ?_, fun c m' hm' => ?_, by rw [tb]; exact h.plan.ids, by simp only [trsv, tb]; exact h.plan.rsvAcq, by simp only [trsv, tb]; exact h.plan.acqRsv,
        by rw [tb]; exact h.plan.pre, by rw [tf, tb]; exact h.plan.evF, by rw [tse, tb]; exact h.plan.evS⟩
      · show opsOf t c = [] ++ opsIn k.S c
        by_cases e : c = x.id
        · subst e; exact tops
        · have h1 := h.plan.ops c
          rw [hc] at h1
          simp only [curOps, if_neg (Ne.symm e)] at h1
          unfold opsOf at h1 ⊢
          rw [tsc c e]; exact h1
      · by_cases e : c = x.id
        · subst e; exact tne m' hm'
        · rw [tsc c e] at hm'; exact h.plan.opsNe c m' hm'
    · refine ⟨by simp only [trrq, tb, tw, treqs]; exact h.io.rrqOk, by simp only [trrq]; exact h.io.rrqInj, by simp only [trrq, tgvr, tw]; exact h.io.rrqW,
        by simp only [treads, trrq, tb]; exact h.io.rdOk, by rw [treads]; exact h.io.rdNd, by simp only [tgvr, tb, trsv]; exact h.io.gvrOk, by simp only [tgvr, tw]; exact h.io.gvrW,
        fun g w hw => ?_, by rw [tb]; exact h.io.dueOk⟩
      rw [tw] at hw; rw [tb]
      obtain ⟨a1, a2, ⟨a3, a4⟩ | a4⟩ := h.io.wOk g w hw
      case inr => exact ⟨a1, a2, .inr (a4.same rfl rfl id ⟨rfl, rfl⟩ (by rw [tb]))⟩
      refine ⟨a1, a2, .inl ⟨a3, ?_⟩⟩
      unfold Holder at a4 ⊢
      simp only [tb, tgvr, tw, trrq, tbuf, tn]
      exact a4
    · exact ⟨by simp only [tw, trrq, tb]; exact h.view.intact, by simp only [tw, tb]; exact h.view.vdN, by simp only [tb, hrd]; exact h.view.vmR, by simp only [tb, hrd]; exact h.view.vmN⟩
  unfold opDone
  rw [hm]
  simp only
  cases hl : opsIn k.S x.id with
  | nil =>
    rw [hl] at hops
    have hno : ∀ {o}, o ∉ opsIn k.S x.id := by rw [hl]; intro o ho; cases ho
    have hna : ¬ HasAcq k.S x.id := fun ⟨o, ho, _⟩ => hno ho
    have hnf : ¬ First k.S x.id := by unfold First; rw [hl]; simp
    have g1 : m.giver = none := by
      cases hz : m.giver with
      | none => rfl
      | some g => exact absurd (h.io.gvrOk x.id g (by rw [gvr_of hm]; exact hz)).1.hasAcq hna
    have g2 : m.reserved = none := by
      cases hz : m.reserved with
      | none => rfl
      | some g => exact absurd (h.plan.rsvAcq x.id g (by rw [rsv_of hm]; exact hz)).2 hna
    have g3 : m.readReq = none := by
      cases hz : m.readReq with
      | none => rfl
      | some g => exact absurd (h.io.rrqOk x.id g (by rw [rrq_of hm]; exact hz)).2.2.2.2.1 hnf
    rw [show m.ops = [x.op] from hops]
    simp only [g1, Option.isSome_none, Bool.false_eq_true, if_false]
    have hrsv : ∀ i, rsv (s.setMeta x.id none) i = rsv s i := by
      intro i; by_cases e : i = x.id
      · subst e; rw [rsv_of hm, g2]; simp [rsv]
      · unfold rsv; rw [setMeta_other _ _ e]
    obtain ⟨k1, k2, k3, k4, k5⟩ := key (s.setMeta x.id none) (by rw [setMeta_same]) hrsv
      (fun i => by
        by_cases e : i = x.id
        · subst e; rw [gvr_of hm, g1]; simp [gvr]
        · unfold gvr; rw [setMeta_other _ _ e])
      (fun i => by
        by_cases e : i = x.id
        · subst e; rw [rrq_of hm, g3]; simp [rrq]
        · unfold rrq; rw [setMeta_other _ _ e])
      (by rw [hl]; simp [opsOf]) (by intro m' hm'; rw [setMeta_same] at hm'; cases hm')
    exact ⟨_, rfl, k1, k2, k3, k4, k5, hrsv⟩
  | cons y l =>
    rw [hl] at hops
    rw [show m.ops = x.op :: y :: l from hops]
    simp only
    have hrsv : ∀ i, rsv (s.setMeta x.id (some { m with ops := y :: l })) i = rsv s i := by
      intro i; rw [rsv_setMeta]; split
      · rename_i e; subst e; rw [rsv_of hm]
      · rfl
    obtain ⟨k1, k2, k3, k4, k5⟩ := key (s.setMeta x.id (some { m with ops := y :: l })) (by rw [setMeta_same]) hrsv
      (fun i => by
        rw [gvr_setMeta]; split
        · rename_i e; subst e; rw [gvr_of hm]
        · rfl)
      (fun i => by
        rw [rrq_setMeta]; split
        · rename_i e; subst e; rw [rrq_of hm]
        · rfl)
      (by rw [hl]; simp [opsOf]) (by intro m' hm'; rw [setMeta_same] at hm'; cases hm'; simp)
    exact ⟨_, rfl, k1, k2, k3, k4, k5, hrsv⟩

end Foxxll.Ahead
