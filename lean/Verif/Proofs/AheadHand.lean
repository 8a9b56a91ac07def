import Verif.Proofs.AheadWrite

set_option linter.unusedSimpArgs false
set_option linter.unusedVariables false
set_option linter.unusedSectionVars false

/-
offline_lru_prefetching: internal blocks are reserved, handed over and attached.
-/
namespace Foxxll.Ahead
open Foxxll.Swap (SB Env POp Elem Op Res Abs Allowed Expected)

variable {D : Type} [Slack D]

/-- The internal block `p` of `g` is detached and reserved for `c`; `wr`: `g` becomes the giver. -/
structure Handed (s t : St D) (c g p : Nat) (wr : Bool) : Prop where
  b : t.b = { s.b with blocks := t.b.blocks }
  bg : t.b.blocks g = { s.b.blocks g with int := none }
  bx : ∀ i, i ≠ g → t.b.blocks i = s.b.blocks i
  freeEv : t.freeEv = s.freeEv
  schedEv : t.schedEv = s.schedEv
  reads : t.reads = s.reads
  reqs : t.reqs = s.reqs
  rsvC : rsv t c = some p
  rsvX : ∀ i, i ≠ c → rsv t i = rsv s i
  rrq : ∀ i, rrq t i = rrq s i
  opsOf : ∀ i, opsOf t i = opsOf s i
  opsNe : ∀ d m, t.sched d = some m → ∃ m', s.sched d = some m' ∧ m'.ops = m.ops
  gc : gvr t c = if wr then some g else none
  gx : ∀ i, i ≠ c → gvr t i = gvr s i
  wg : t.wsched g = if wr then (s.wsched g).map fun w => { w with taker := some c } else s.wsched g
  wx : ∀ i, i ≠ g → t.wsched i = s.wsched i

theorem hand_ok {dflt : D} {a : Abs D} {k : Ctx} {v : Swap.St D} {s t : St D} (h : Inv dflt a k v s) {c g p : Nat} {b : Bool} (hs : Handed s t c g p b)
    (hic : (s.b.blocks c).int = none) (hrc : rsv s c = none) (hac : HasAcq k.S c) (hout : k.out = some g) (hi : (s.b.blocks g).int = some p)
    (hr : (s.b.blocks g).refs = 0) (hdg : (s.b.blocks g).dirty = false) (heg : (s.b.blocks g).ext ≠ none) (hdue : ¬ k.due g) (hnacq : ¬ HasAcq k.S g)
    (hgf : g ∉ s.freeEv) (hgs : g ∉ s.schedEv)
    (hw0 : b = false → ∀ w, s.wsched g = some w → Stray k s g w)
    (hb : b = true → Before k.S c g ∧ ∃ w, s.wsched g = some w ∧ w.taker = none ∧ w.buf = p ∧ w.shallRead = false)
    (hn : t.next = [] ∨ ∀ g' w, g' ≠ g → s.wsched g' = some w → w.taker ≠ none ∨ Stray k s g' w) :
    ∃ v', Inv dflt a { k with out := none } v' t := by
  have hne : c ≠ g := by rintro rfl; rw [hic] at hi; cases hi
  have hgvc : gvr s c = none := by
    cases hz : gvr s c with
    | none => rfl
    | some x =>
      rcases (h.io.gvrOk c x hz).2.2.2 with h1 | h1
      · exact absurd hrc h1
      · exact absurd hic h1.1
  have hgvg : gvr s g = none := by
    cases hz : gvr s g with
    | none => rfl
    | some x => exact absurd (h.io.gvrOk g x hz).1.hasAcq hnacq
  have hrrg : rrq s g = none := by
    cases hz : rrq s g with
    | none => rfl
    | some x => exact absurd (h.io.rrqOk g x hz).2.2.2.2.1.hasAcq hnacq
  have hrrc : rrq s c = none := by
    cases hz : rrq s c with
    | none => rfl
    | some x => exact absurd hic (h.io.rrqOk c x hz).1
  have hdc : ¬ k.due c := fun hc => (h.io.dueOk c hc).1 hic
  have hrsg : rsv s g = none := by
    cases hz : rsv s g with
    | none => rfl
    | some x => have := (h.plan.rsvAcq g x hz).1; rw [hi] at this; cases this
  have hnr : ¬ Rdg k s g := by
    rintro (⟨r, h1, _⟩ | ⟨_, h2 | ⟨g', w, h2, _⟩⟩)
    · rw [hrrg] at h1; cases h1
    · exact hdue h2
    · rw [hgvg] at h2; cases h2
  have tn : t.b.n = s.b.n := by rw [hs.b]
  have tfree : t.b.free = s.b.free := by rw [hs.b]
  have tmem : t.b.mem = s.b.mem := by rw [hs.b]
  have tdisk : t.b.disk = s.b.disk := by rw [hs.b]
  have tintx : ∀ i q, (t.b.blocks i).int = some q → i ≠ g ∧ (s.b.blocks i).int = some q := by
    intro i q hq
    by_cases e : i = g
    · subst e; rw [hs.bg] at hq; cases hq
    · rw [hs.bx i e] at hq; exact ⟨e, hq⟩
  have text : ∀ i, (t.b.blocks i).ext = (s.b.blocks i).ext := by
    intro i; by_cases e : i = g
    · subst e; rw [hs.bg]
    · rw [hs.bx i e]
  have tdir : ∀ i, (t.b.blocks i).dirty = (s.b.blocks i).dirty := by
    intro i; by_cases e : i = g
    · subst e; rw [hs.bg]
    · rw [hs.bx i e]
  have tref : ∀ i, (t.b.blocks i).refs = (s.b.blocks i).refs := by
    intro i; by_cases e : i = g
    · subst e; rw [hs.bg]
    · rw [hs.bx i e]
  have tws : ∀ j w, t.wsched j = some w → (j = g ∧ b = true ∧ ∃ w0, s.wsched g = some w0 ∧ w0.taker = none ∧ w0.buf = p ∧ w0.shallRead = false ∧ w = { w0 with taker := some c }) ∨
      ((j ≠ g ∨ b = false ∧ Stray k s j w) ∧ s.wsched j = some w) := by
    intro j w hj
    by_cases e : j = g
    · subst e
      rw [hs.wg] at hj
      cases hb' : b with
      | false =>
        rw [hb'] at hj
        exact .inr ⟨.inr ⟨rfl, hw0 hb' w hj⟩, hj⟩
      | true =>
        obtain ⟨_, w0, h1, h2, h3, h4⟩ := hb hb'
        rw [hb', h1] at hj
        exact .inl ⟨rfl, rfl, w0, h1, h2, h3, h4, (Option.some.inj hj).symm⟩
    · rw [hs.wx j e] at hj; exact .inr ⟨.inl e, hj⟩
  have hng : b = true → ∀ d, gvr s d ≠ some g := by
    intro hb' d hd
    obtain ⟨_, w0, h1, h2, _⟩ := hb hb'
    have := h.io.gvrW d g w0 hd h1
    rw [h2] at this; cases this
  have hpf : p ∉ v.free := (h.sw.core.att g p (by rw [h.base.blocks]; exact hi)).2.2.1
  have hrd : ∀ i, i ≠ c → (Rdg { k with out := none } t i ↔ Rdg k s i) := by
    intro i hic'
    unfold Rdg
    rw [hs.rrq, hs.gx i hic', hs.reads]
    refine or_congr Iff.rfl (and_congr Iff.rfl (or_congr Iff.rfl ⟨?_, ?_⟩))
    · rintro ⟨g', w, h1, h2, h3⟩
      rcases tws g' w h2 with ⟨rfl, hb', _⟩ | ⟨_, h4⟩
      · exact absurd h1 (hng hb' i)
      · exact ⟨g', w, h1, h4, h3⟩
    · rintro ⟨g', w, h1, h2, h3⟩
      by_cases e : g' = g
      · subst e
        cases hb' : b with
        | false => exact ⟨g', w, h1, by rw [hs.wg, hb']; exact h2, h3⟩
        | true => exact absurd h1 (hng hb' i)
      · exact ⟨g', w, h1, by rw [hs.wx g' e]; exact h2, h3⟩
  generalize hv' : ({ v.set g { v.blocks g with int := none } with free := p :: v.free, evict := Swap.eraseEvict v.evict g } : Swap.St D) = v'
  have vb : v'.blocks = t.b.blocks := by
    rw [← hv']; funext i
    show (if i = g then _ else _) = _
    by_cases e : i = g
    · subst e; rw [if_pos rfl, hs.bg, h.base.blocks]
    · rw [if_neg e, hs.bx i e, h.base.blocks]
  have hsw : Swap.Inv dflt v' a := by
    refine h.sw.unload (c := g) (p := p) (by rw [h.base.blocks]; exact hi) (by rw [h.base.blocks]; exact hr) (by rw [h.base.blocks]; exact hdg) ?_ ?_ ?_ ?_ ?_ ?_ ?_ ?_ ?_ ?_ ?_ ?_
    · rw [← hv']
    · rw [← hv']; rfl
    · rw [← hv']; rfl
    · rw [← hv']; rfl
    · rw [← hv']; rfl
    · rw [← hv']; rfl
    · intro x; rw [← hv']; simp only [List.mem_cons]; exact or_comm
    · rw [← hv']; exact List.nodup_cons.2 ⟨hpf, h.sw.core.freeNd⟩
    · intro i; rw [← hv']; exact Swap.erase_ids _ _ _
    · rw [← hv']; exact Swap.erase_nodup _ h.sw.ev.nd
    · intro i x _ _; rw [← hv']; rfl
    · rw [← hv']; rfl
  have vm : v'.mem = v.mem := by rw [← hv']; rfl
  have vd : v'.disk = v.disk := by rw [← hv']; rfl
  refine ⟨v', hsw, ?_, ?_, ?_, ?_⟩
  · refine ⟨vb, ?_, ?_, ?_, ?_, ?_, fun x => ?_, by rw [tfree]; exact h.base.freeNd, fun d x hx => ?_, fun d d' x hx hx' => ?_, fun i => ?_, by rw [hs.freeEv, hs.schedEv]; exact h.base.disj⟩
    · rw [tn, ← h.base.n, ← hv']; rfl
    · rw [show t.b.held = s.b.held by rw [hs.b], ← h.base.held, ← hv']; rfl
    · rw [show t.b.next = s.b.next by rw [hs.b], ← h.base.next, ← hv']; rfl
    · rw [show t.b.remaining = s.b.remaining by rw [hs.b], ← h.base.remaining, ← hv']; rfl
    · rw [show t.b.max = s.b.max by rw [hs.b], ← h.base.max, ← hv']; rfl
    · rw [show v'.free = p :: v.free by rw [← hv'], tfree, List.mem_cons, h.base.vfree]
      constructor
      · rintro (rfl | h1 | ⟨d, h1⟩)
        · exact .inr ⟨c, hs.rsvC⟩
        · exact .inl h1
        · refine .inr ⟨d, ?_⟩
          rw [hs.rsvX]; exact h1
          rintro rfl; rw [hrc] at h1; cases h1
      · rintro (h1 | ⟨d, h1⟩)
        · exact .inr (.inl h1)
        · by_cases e : d = c
          · subst e; rw [hs.rsvC] at h1; cases h1; exact .inl rfl
          · rw [hs.rsvX d e] at h1; exact .inr (.inr ⟨d, h1⟩)
    · rw [tfree]
      by_cases e : d = c
      · subst e; rw [hs.rsvC] at hx; cases hx; exact fun hc => hpf ((h.base.vfree p).2 (.inl hc))
      · rw [hs.rsvX d e] at hx; exact h.base.rsvFree d x hx
    · by_cases e : d = c <;> by_cases e' : d' = c
      · rw [e, e']
      · subst e; rw [hs.rsvC] at hx; cases hx; rw [hs.rsvX d' e'] at hx'; exact absurd (h.int_rsv hi hx') id
      · subst e'; rw [hs.rsvC] at hx'; cases hx'; rw [hs.rsvX d e] at hx; exact absurd (h.int_rsv hi hx) id
      · rw [hs.rsvX d e] at hx; rw [hs.rsvX d' e'] at hx'; exact h.base.rsvInj d d' x hx hx'
    · rw [show v'.evict = Swap.eraseEvict v.evict g by rw [← hv'], Swap.erase_ids, h.base.vev, hs.freeEv, hs.schedEv]
      constructor
      · rintro ⟨h1 | h1 | h1, h2⟩
        · exact .inl h1
        · exact .inr (.inl h1)
        · rw [hout] at h1; exact absurd (Option.some.inj h1).symm h2
      · rintro (h1 | h1 | h1)
        · exact ⟨.inl h1, by rintro rfl; exact hgf h1⟩
        · exact ⟨.inr (.inl h1), by rintro rfl; exact hgs h1⟩
        · cases h1
  · refine ⟨fun d => by rw [hs.opsOf]; exact h.plan.ops d, fun d m hm => ?_, by rw [tn]; exact h.plan.ids, fun d x hx => ?_, fun d h1 h2 h3 => ?_, fun d h1 h2 h3 => ?_, fun i h1 => ?_, fun i h1 => ?_⟩
    · obtain ⟨m', h1, h2⟩ := hs.opsNe d m hm
      rw [← h2]; exact h.plan.opsNe d m' h1
    · by_cases e : d = c
      · subst e; rw [hs.bx d hne]; exact ⟨hic, hac⟩
      · rw [hs.rsvX d e] at hx
        have hdg : d ≠ g := by rintro rfl; rw [hrsg] at hx; cases hx
        rw [hs.bx d hdg]; exact h.plan.rsvAcq d x hx
    · have hdg : d ≠ g := by rintro rfl; exact hnacq h1
      by_cases e : d = c
      · subst e; rw [hs.rsvC]; simp
      · rw [hs.rsvX d e]; rw [hs.bx d hdg] at h2; exact h.plan.acqRsv d h1 h2 h3
    · have hdg : d ≠ g := by rintro rfl; exact hnacq h1.hasAcq
      rw [hs.bx d hdg] at h2 ⊢; exact h.plan.pre d h1 h2 h3
    · rw [hs.freeEv] at h1; rw [tdir]; exact h.plan.evF i h1
    · rw [hs.schedEv] at h1; rw [tdir]; exact h.plan.evS i h1
  · refine ⟨fun d r hd => ?_, fun d d' r => by rw [hs.rrq, hs.rrq]; exact h.io.rrqInj d d' r, fun d r g' w h1 h2 h3 => ?_, fun x hx => ?_, by rw [hs.reads]; exact h.io.rdNd,
      fun d g' hd => ?_, fun d g' w h1 h2 => ?_, fun g' w hw' => ?_, fun d hd => ?_⟩
    · rw [hs.rrq] at hd
      have hdg : d ≠ g := by rintro rfl; rw [hrrg] at hd; cases hd
      rw [hs.bx d hdg, hs.wx d hdg, hs.reqs]; exact h.io.rrqOk d r hd
    · rw [hs.rrq] at h1
      have hdc : d ≠ c := by rintro rfl; rw [hrrc] at h1; cases h1
      rw [hs.gx d hdc] at h2
      rcases tws g' w h3 with ⟨rfl, hb', _⟩ | ⟨_, h4⟩
      · exact absurd h2 (hng hb' d)
      · exact h.io.rrqW d r g' w h1 h2 h4
    · rw [hs.reads] at hx
      obtain ⟨d, x1, x2, x3⟩ := h.io.rdOk x hx
      have hdg : d ≠ g := by rintro rfl; rw [hrrg] at x1; cases x1
      exact ⟨d, by rw [hs.rrq]; exact x1, by rw [hs.bx d hdg]; exact x2, by rw [hs.bx d hdg]; exact x3⟩
    · by_cases e : d = c
      · subst e
        rw [hs.gc] at hd
        cases hb' : b with
        | false => rw [hb'] at hd; cases hd
        | true =>
          rw [hb'] at hd; cases hd
          rw [hs.rsvC, tdir, tref]
          exact ⟨(hb hb').1, hdg, hr, .inl (by simp)⟩
      · rw [hs.gx d e] at hd
        have hdg : d ≠ g := by rintro rfl; rw [hgvg] at hd; cases hd
        rw [hs.rsvX d e, hs.bx d hdg, tdir, tref]
        exact h.io.gvrOk d g' hd
    · by_cases e : d = c
      · subst e
        rw [hs.gc] at h1
        cases hb' : b with
        | false => rw [hb'] at h1; cases h1
        | true =>
          rw [hb'] at h1; cases h1
          rcases tws g w h2 with ⟨_, _, w0, _, _, _, _, rfl⟩ | ⟨hx | hx, _⟩
          · rfl
          · exact absurd rfl hx
          · rw [hb'] at hx; cases hx.1
      · rw [hs.gx d e] at h1
        rcases tws g' w h2 with ⟨rfl, hb', _⟩ | ⟨_, h4⟩
        · exact absurd h1 (hng hb' d)
        · exact h.io.gvrW d g' w h1 h4
    · rcases tws g' w hw' with ⟨rfl, hb', w0, hw0', ht0, hbf, hsf, rfl⟩ | ⟨hg', h4⟩
      · obtain ⟨a1, a2, _⟩ := h.io.wOk g' w0 hw0'
        refine ⟨by rw [text]; exact a1, by rw [tdir]; exact a2, .inl ⟨by rw [tref]; exact hr, .inr ⟨c, rfl, hne, by rw [hs.gc, hb']; rfl, ?_, .inl (by rw [hs.bg]), ?_, ?_⟩⟩⟩
        · unfold bufOf
          rw [hs.bx c hne, hic, hs.rsvC, ← hbf]; rfl
        · intro hsr
          exfalso
          have hsr : w0.shallRead = true := hsr
          rw [hsf] at hsr; cases hsr
        · rw [hs.bx c hne, hic]; exact fun hx => absurd rfl hx
      · obtain ⟨a1, a2, hh⟩ := h.io.wOk g' w h4
        have hst : Stray k s g' w → Stray { k with out := none } t g' w := by
          intro st
          refine st.of rfl rfl id rfl ⟨[], by simp⟩ fun hx => ?_
          by_cases e : g' = g
          · subst e; exact .inr fun hf => hnacq hf.hasAcq
          · rw [hs.bx g' e] at hx; exact .inl hx
        refine ⟨by rw [text]; exact a1, by rw [tdir]; exact a2, ?_⟩
        rcases hg' with hg' | ⟨_, st⟩
        rotate_left
        · exact .inr (hst st)
        rcases hh.symm with st | ⟨a3, a4⟩
        · exact .inr (hst st)
        by_cases hst' : Stray k s g' w
        · exact .inr (hst hst')
        refine .inl ⟨by rw [tref]; exact a3, ?_⟩
        rcases a4 with ⟨b1, b2, b3, b4⟩ | ⟨m, b1, b2, b3, b4, b5, b6, b7⟩
        · refine .inl ⟨by rw [hs.bx g' hg']; exact b1, b2, b3, ?_⟩
          rcases b4 with ⟨c1, c2, c3⟩ | ⟨c1, c2⟩
          · rcases hn with hn | hn
            · exact .inl ⟨c1, hn, c3⟩
            · rcases hn g' w hg' h4 with h5 | h5
              · exact absurd c1 h5
              · exact absurd h5 hst'
          · have hgc : g' ≠ c := by rintro rfl; rw [hgvc] at c2; cases c2
            exact .inr ⟨c1, by rw [hs.gx g' hgc]; exact c2⟩
        · have hmc : m ≠ c := by rintro rfl; rw [hgvc] at b3; cases b3
          have hmg : m ≠ g := by rintro rfl; rw [hgvg] at b3; cases b3
          exact .inr ⟨m, b1, b2, by rw [hs.gx m hmc]; exact b3, by unfold bufOf at b4 ⊢; rw [hs.bx m hmg, hs.rsvX m hmc]; exact b4, by rw [hs.bx g' hg']; exact b5,
            by rw [hs.bx m hmg, hs.wx m hmg, hs.rrq]; exact b6, by rw [hs.bx m hmg]; exact b7⟩
    · have hdg : d ≠ g := by rintro rfl; exact hdue hd
      rw [hs.bx d hdg]; exact h.io.dueOk d hd
  · refine ⟨fun g' w hw' hx => ?_, fun x hx => ?_, fun i q x h1 h2 h3 => ?_, fun q hq => ?_⟩
    · rw [tmem, vd]
      rcases tws g' w hw' with ⟨rfl, hb', w0, hw0', ht0, _, _, rfl⟩ | ⟨hg', h4⟩
      · exact h.view.intact g' w0 hw0' fun m hm => by rw [ht0] at hm; cases hm
      · exact h.view.intact g' w h4 fun m hm => by rw [← hs.rrq]; exact hx m hm
    · rw [tdisk, vd]
      refine h.view.vdN x fun g' w hw' hp' => ?_
      by_cases e : g' = g
      · subst e
        cases hb' : b with
        | false => exact hx g' w (by rw [hs.wg, hb']; exact hw') hp'
        | true =>
          have := hx g' { w with taker := some c } (by rw [hs.wg, hb', hw']; rfl) hp'
          exact this
      · exact hx g' w (by rw [hs.wx g' e]; exact hw') hp'
    · rw [vm, vd]
      obtain ⟨hig, h2⟩ := tintx i q h2
      have hic' : i ≠ c := by rintro rfl; rw [hic] at h2; cases h2
      rw [text] at h3
      exact h.view.vmR i q x ((hrd i hic').1 h1) h2 h3
    · rw [vm, tmem]
      refine h.view.vmN q fun i h1 h2 => ?_
      have hig : i ≠ g := by rintro rfl; exact hnr h2
      have hic' : i ≠ c := by rintro rfl; rw [hic] at h1; cases h1
      exact hq i (by rw [hs.bx i hig]; exact h1) ((hrd i hic').2 h2)

end Foxxll.Ahead
