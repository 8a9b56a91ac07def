import Verif.Proofs.AheadRead

set_option linter.unusedSimpArgs false
set_option linter.unusedVariables false
set_option linter.unusedSectionVars false

/-
offline_lru_prefetching: blocks are written, evicted and handed over.
-/
namespace Foxxll.Ahead
open Foxxll.Swap (SB Env POp Elem Op Res Abs Allowed Expected)

variable {D : Type} [Slack D]

/-! ### The rest of the sequence does not matter for the I/O threads -/

def St.withNext (s : St D) (l : List Elem) : St D := { s with next := l }

theorem diskStep_next (s : St D) (l : List Elem) (x : Disk) : diskStep (s.withNext l) x = (diskStep s x).map (·.withNext l) := by
  cases x with
  | write g =>
    simp only [diskStep]
    show (match s.wsched g with | some w => _ | none => _) = _
    cases s.wsched g with
    | none => rfl
    | some w => simp only; split <;> rfl
  | flag g =>
    simp only [diskStep]
    show (match s.wsched g with | some w => _ | none => _) = _
    cases s.wsched g with
    | none => rfl
    | some w => simp only; split <;> rfl
  | handle g =>
    simp only [diskStep]
    show (match s.wsched g with | some w => _ | none => _) = _
    cases s.wsched g with
    | none => rfl
    | some w =>
      simp only
      split
      · unfold doHandle
        simp only
        split
        · cases w.taker with
          | none => rfl
          | some t =>
            simp only
            unfold startRead
            show (match (s.b.blocks w.target).int, (s.b.blocks w.target).ext, s.sched t with | some p, some e, some m => _ | _, _, _ => none) =
              (match (s.b.blocks w.target).int, (s.b.blocks w.target).ext, s.sched t with | some p, some e, some m => _ | _, _, _ => none).map _
            cases (s.b.blocks w.target).int <;> cases (s.b.blocks w.target).ext <;> cases s.sched t <;> rfl
        · rfl
      · rfl
  | read r =>
    simp only [diskStep, doRead]
    show some (match s.reads.find? (fun x => x.id == r) with | none => _ | some x => _) = _
    cases s.reads.find? (fun x => x.id == r) <;> rfl

theorem diskSteps_next (l : List Elem) : ∀ (d : List Disk) (s : St D), diskSteps (s.withNext l) d = (diskSteps s d).map (·.withNext l) := by
  intro d
  induction d with
  | nil => intro s; rfl
  | cons x d ih =>
    intro s
    simp only [diskSteps, diskStep_next]
    cases h : diskStep s x with
    | none => rfl
    | some s1 => simp only [Option.map_some, Option.bind_some]; exact ih s1

theorem sync_next (s : St D) (l : List Elem) : sync (s.withNext l) = (sync s).map (·.withNext l) := by
  unfold sync
  exact diskSteps_next l (s.orc.headD []) { s with orc := s.orc.tail }

/-- The rest of the sequence may be changed unless there are final write requests. -/
theorem Inv.setNext {dflt : D} {a : Abs D} {k : Ctx} {v : Swap.St D} {s : St D} (h : Inv dflt a k v s) (l : List Elem)
    (hl : s.next = [] → l = [] ∨ ∀ g w, s.wsched g = some w → w.taker ≠ none ∨ Stray k s g w) : Inv dflt a k v (s.withNext l) := by
  refine ⟨h.sw, ⟨h.base.blocks, h.base.n, h.base.held, h.base.next, h.base.remaining, h.base.max, h.base.vfree, h.base.freeNd, h.base.rsvFree, h.base.rsvInj, h.base.vev, h.base.disj⟩,
    ⟨h.plan.ops, h.plan.opsNe, h.plan.ids, h.plan.rsvAcq, h.plan.acqRsv, h.plan.pre, h.plan.evF, h.plan.evS⟩,
    ⟨h.io.rrqOk, h.io.rrqInj, h.io.rrqW, h.io.rdOk, h.io.rdNd, h.io.gvrOk, h.io.gvrW, fun g w hw => ?_, h.io.dueOk⟩,
    ⟨h.view.intact, h.view.vdN, h.view.vmR, h.view.vmN⟩⟩
  obtain ⟨h1, h2, ⟨h3, h4⟩ | h4⟩ := h.io.wOk g w hw
  case inr => exact ⟨h1, h2, .inr (h4.same rfl rfl id ⟨rfl, rfl⟩ rfl)⟩
  by_cases hst : Stray k s g w
  · exact ⟨h1, h2, .inr (hst.same rfl rfl id ⟨rfl, rfl⟩ rfl)⟩
  refine ⟨h1, h2, .inl ⟨h3, ?_⟩⟩
  rcases h4 with ⟨b1, b2, b3, b4⟩ | b
  · refine .inl ⟨b1, b2, b3, ?_⟩
    rcases b4 with ⟨c1, c2, c3⟩ | b4
    · rcases hl c2 with rfl | hl
      · exact .inl ⟨c1, rfl, c3⟩
      · exact absurd c1 ((hl g w hw).resolve_right hst)
    · exact .inr b4
  · exact .inr b

/-! ### A dirty block is written -/

theorem Base.live {k : Ctx} {v : Swap.St D} {s : St D} (h : Base k v s) : v.live = s.b.live := by
  unfold Swap.St.live; rw [h.n, h.blocks, h.held]

/-- The block may be written: nothing will touch it any more, or (if the data is not looked at) it will be extracted. -/
def Late (k : Ctx) (s : St D) (g : Nat) : Prop :=
  (s.next = [] ∧ ∀ o ∈ opsIn k.S g, touches o = false) ∨ (Slack.ok D ∧ shallClean (opsIn k.S g) = true)

theorem write_ok {dflt : D} {a : Abs D} {k : Ctx} {v : Swap.St D} {s : St D} (h : Inv dflt a k v s) {g p e : Nat} (hi : (s.b.blocks g).int = some p)
    (hr : (s.b.blocks g).refs = 0) (hdy : (s.b.blocks g).dirty = true) (hw : s.wsched g = none) (hnt : Late k s g)
    (he : (s.b.blocks g).ext = some e ∨ e ∉ s.b.live) :
    ∃ v', Inv dflt a k v' ((s.setBlk g { s.b.blocks g with ext := some e, dirty := false }).setWrr g (some { buf := p, ext := e })) := by
  have hnd : ¬ k.due g := fun hc => by have := (h.io.dueOk g hc).2.2.1; rw [hdy] at this; cases this
  have hrg : rrq s g = none := by
    cases hz : rrq s g with
    | none => rfl
    | some r => have := (h.io.rrqOk g r hz).2.2.1; rw [hdy] at this; cases this
  have hnr : ¬ Rdg k s g := by
    rintro (⟨r, h1, _⟩ | ⟨_, h2⟩)
    · rw [hrg] at h1; cases h1
    · rcases h2 with h2 | ⟨g', w, h2, h3, h4⟩
      · exact hnd h2
      · rcases (h.io.wOk g' w h3).2.2 with ⟨_, ⟨_, _, b3, _⟩ | ⟨m, b1, b2, b3, b4, b5, b6, b7⟩⟩ | st
        · rw [b3] at h4; cases h4
        · have := h.io.gvrW g g' w h2 h3
          rw [b1] at this; cases this
          have := (b6 h4).2.2.2.2.1; rw [hdy] at this; cases this
        · rw [st.2.2.1] at h4; cases h4
  have hng : ∀ d, gvr s d ≠ some g := by
    intro d hc; have := (h.io.gvrOk d g hc).2.1; rw [hdy] at this; cases this
  have hvm : v.mem p = s.b.mem p := by
    refine h.view.vmN p fun i h1 h2 => ?_
    have := h.int_inj h1 hi; subst this; exact hnr h2
  have hlive := h.base.live
  have hbl := h.base.blocks
  have hextne : ∀ i x, (s.b.blocks i).ext = some x → i ≠ g → x ≠ e := by
    rintro i x h1 h2 rfl
    rcases he with he | he
    · exact h2 (h.ext_inj h1 he)
    · refine he ?_
      rw [← hlive]
      exact Swap.mem_live h.sw.core (by rw [hbl]; exact h1)
  have hsw := h.sw.clean (c := g) (p := p) (e := e) (by rw [hbl]; exact hi) (by rw [hbl]; exact hr) (by rw [hbl, hlive]; exact he)
  generalize ht1 : (s.setBlk g { s.b.blocks g with ext := some e, dirty := false }).setWrr g (some { buf := p, ext := e }) = t
  have tb : ∀ i, t.b.blocks i = if i = g then { s.b.blocks g with ext := some e, dirty := false } else s.b.blocks i := by intro i; rw [← ht1]; rfl
  have tbg : t.b.blocks g = { s.b.blocks g with ext := some e, dirty := false } := by rw [tb]; simp
  have tbx : ∀ i, i ≠ g → t.b.blocks i = s.b.blocks i := fun i hi => by rw [tb]; simp [hi]
  have tint : ∀ i, (t.b.blocks i).int = (s.b.blocks i).int := by
    intro i; by_cases x : i = g
    · subst x; rw [tbg]
    · rw [tbx i x]
  have tref : ∀ i, (t.b.blocks i).refs = (s.b.blocks i).refs := by
    intro i; by_cases x : i = g
    · subst x; rw [tbg]
    · rw [tbx i x]
  have tdir : ∀ i, (s.b.blocks i).dirty = false → (t.b.blocks i).dirty = false := by
    intro i; by_cases x : i = g
    · subst x; rw [tbg]; simp
    · rw [tbx i x]; exact id
  have text : ∀ i, (s.b.blocks i).ext ≠ none → (t.b.blocks i).ext ≠ none := by
    intro i; by_cases x : i = g
    · subst x; rw [tbg]; simp
    · rw [tbx i x]; exact id
  have trsv : ∀ i, rsv t i = rsv s i := fun i => by rw [← ht1]; rfl
  have tgvr : ∀ i, gvr t i = gvr s i := fun i => by rw [← ht1]; rfl
  have trrq : ∀ i, rrq t i = rrq s i := fun i => by rw [← ht1]; rfl
  have tops : ∀ i, opsOf t i = opsOf s i := fun i => by rw [← ht1]; rfl
  have tsched : t.sched = s.sched := by rw [← ht1]; rfl
  have tn : t.b.n = s.b.n := by rw [← ht1]; rfl
  have tnext : t.next = s.next := by rw [← ht1]; rfl
  have tfe : t.freeEv = s.freeEv := by rw [← ht1]; rfl
  have tse : t.schedEv = s.schedEv := by rw [← ht1]; rfl
  have tfree : t.b.free = s.b.free := by rw [← ht1]; rfl
  have tmem : t.b.mem = s.b.mem := by rw [← ht1]; rfl
  have tdisk : t.b.disk = s.b.disk := by rw [← ht1]; rfl
  have treads : t.reads = s.reads := by rw [← ht1]; rfl
  have treqs : t.reqs = s.reqs := by rw [← ht1]; rfl
  have twg : t.wsched g = some { buf := p, ext := e } := by rw [← ht1]; exact setWrr_same _ _ _
  have twx : ∀ j, j ≠ g → t.wsched j = s.wsched j := fun j hj => by rw [← ht1]; exact setWrr_other _ _ hj
  have tws : ∀ j w, t.wsched j = some w → (j = g ∧ w = { buf := p, ext := e }) ∨ (j ≠ g ∧ s.wsched j = some w) := by
    intro j w hj
    by_cases x : j = g
    · subst x; rw [twg] at hj; exact .inl ⟨rfl, (Option.some.inj hj).symm⟩
    · rw [twx j x] at hj; exact .inr ⟨x, hj⟩
  have hrd : ∀ i, Rdg k t i ↔ Rdg k s i := by
    intro i
    unfold Rdg
    rw [trrq, tgvr, treads]
    refine or_congr Iff.rfl (and_congr Iff.rfl (or_congr Iff.rfl ⟨?_, ?_⟩))
    · rintro ⟨g', w, h1, h2, h3⟩
      rcases tws g' w h2 with ⟨rfl, rfl⟩ | ⟨_, h4⟩
      · exact absurd h1 (hng i)
      · exact ⟨g', w, h1, h4, h3⟩
    · rintro ⟨g', w, h1, h2, h3⟩
      refine ⟨g', w, h1, ?_, h3⟩
      rw [twx]; exact h2
      rintro rfl; exact hng i h1
  refine ⟨_, hsw, ?_, ?_, ?_, ?_⟩
  · refine ⟨?_, h.base.n.trans tn.symm, ?_, ?_, ?_, ?_, fun x => by simp only [trsv, tfree]; exact h.base.vfree x, by rw [tfree]; exact h.base.freeNd,
      fun c x => by rw [trsv, tfree]; exact h.base.rsvFree c x, fun c d x => by rw [trsv, trsv]; exact h.base.rsvInj c d x, by rw [tfe, tse]; exact h.base.vev, by rw [tfe, tse]; exact h.base.disj⟩
    · funext i
      rw [tb]
      show (if i = g then _ else _) = _
      rw [hbl]
    · rw [← ht1]; exact h.base.held
    · rw [← ht1]; exact h.base.next
    · rw [← ht1]; exact h.base.remaining
    · rw [← ht1]; exact h.base.max
  · refine ⟨fun c => by rw [tops]; exact h.plan.ops c, by rw [tsched]; exact h.plan.opsNe, by rw [tn]; exact h.plan.ids, fun c x => by rw [trsv, tint]; exact h.plan.rsvAcq c x,
      fun c => by rw [trsv, tint]; exact h.plan.acqRsv c, fun c h1 h2 h3 => ?_, fun i h1 => ?_, fun i h1 => ?_⟩
    · rw [tint]
      by_cases x : c = g
      · subst x; rw [hi]; simp
      · rw [tbx c x] at h2; exact h.plan.pre c h1 h2 h3
    · rw [tfe] at h1
      refine ⟨(h.plan.evF i h1).1, fun h2 => (h.plan.evF i h1).2 ?_⟩
      by_cases x : i = g
      · subst x; exact hdy
      · rw [tbx i x] at h2; exact h2
    · rw [tse] at h1
      rcases h.plan.evS i h1 with h2 | ⟨h2, h3⟩ | h2
      · exact .inl h2
      · by_cases x : i = g
        · subst x
          rcases hnt with hnt | hnt
          · have := hnt.2 _ h3; cases this
          · exact .inr (.inr hnt.2)
        · refine .inr (.inl ⟨?_, h3⟩)
          rw [tbx i x]; exact h2
      · exact .inr (.inr h2)
  · refine ⟨fun c r hc => ?_, fun c d r => by rw [trrq, trrq]; exact h.io.rrqInj c d r, fun c r g' w h1 h2 h3 => ?_, fun x hx => ?_, by rw [treads]; exact h.io.rdNd,
      fun c g' hc => ?_, fun c g' w h1 h2 => ?_, fun g' w hw' => ?_, fun c hc => ?_⟩
    · rw [trrq] at hc
      obtain ⟨a1, a2, a3, a4, a5, a6, a7⟩ := h.io.rrqOk c r hc
      refine ⟨by rw [tint]; exact a1, by rw [tref]; exact a2, tdir c a3, text c a4, a5, ?_, by rw [treqs]; exact a7⟩
      rw [twx]; exact a6
      rintro rfl; rw [hrg] at hc; cases hc
    · rw [trrq] at h1; rw [tgvr] at h2
      rcases tws g' w h3 with ⟨rfl, rfl⟩ | ⟨_, h4⟩
      · exact absurd h2 (hng c)
      · exact h.io.rrqW c r g' w h1 h2 h4
    · rw [treads] at hx
      obtain ⟨c, x1, x2, x3⟩ := h.io.rdOk x hx
      refine ⟨c, by rw [trrq]; exact x1, by rw [tint]; exact x2, ?_⟩
      rw [tbx c]; exact x3
      rintro rfl; rw [hrg] at x1; cases x1
    · rw [tgvr] at hc
      obtain ⟨x1, x2, x3, x5⟩ := h.io.gvrOk c g' hc
      exact ⟨x1, tdir g' x2, by rw [tref]; exact x3, by rw [trsv, tint, tref]; exact x5⟩
    · rw [tgvr] at h1
      rcases tws g' w h2 with ⟨rfl, rfl⟩ | ⟨_, h4⟩
      · exact absurd h1 (hng c)
      · exact h.io.gvrW c g' w h1 h4
    · rcases tws g' w hw' with ⟨rfl, rfl⟩ | ⟨hx, h4⟩
      · rw [tbg]
        refine ⟨rfl, rfl, ?_⟩
        rcases hnt with ⟨hn, ht⟩ | ⟨hn, ht⟩
        · exact .inl ⟨hr, .inl ⟨by rw [tbg]; exact hi, hnd, rfl, .inl ⟨rfl, by rw [tnext]; exact hn, ht⟩⟩⟩
        · exact .inr ⟨hn, rfl, rfl, hnd, .inr ⟨ht, fun hc => by rw [tbg] at hc; rw [hi] at hc; cases hc⟩⟩
      · obtain ⟨a1, a2, hh⟩ := h.io.wOk g' w h4
        rcases hh.symm with st | ⟨a3, a4⟩
        · exact ⟨by rw [tbx g' hx]; exact a1, tdir g' a2, .inr (st.same rfl rfl id ⟨rfl, rfl⟩ (tint g'))⟩
        refine ⟨by rw [tbx g' hx]; exact a1, tdir g' a2, .inl ⟨by rw [tref]; exact a3, ?_⟩⟩
        rcases a4 with ⟨b1, b2, b3, b4⟩ | ⟨m, b1, b2, b3, b4, b5, b6, b7⟩
        · exact .inl ⟨by rw [tint]; exact b1, b2, b3, by rw [tnext, tgvr]; exact b4⟩
        · refine .inr ⟨m, b1, b2, by rw [tgvr]; exact b3, by unfold bufOf at b4 ⊢; rw [tint, trsv]; exact b4, by rw [tint]; exact b5, fun hs => ?_, by rw [tint]; exact b7⟩
          obtain ⟨c1, c2, c3, c4, c5, c6⟩ := b6 hs
          refine ⟨c1, by rw [tint]; exact c2, ?_, text m c4, tdir m c5, by rw [trrq]; exact c6⟩
          rw [twx]; exact c3
          rintro rfl; rw [hdy] at c5; cases c5
    · obtain ⟨a1, a2, a3, a4, a5⟩ := h.io.dueOk c hc
      exact ⟨by rw [tint]; exact a1, by rw [tref]; exact a2, tdir c a3, text c a4, a5⟩
  · refine ⟨fun g' w hw' hx => ?_, fun x hx => ?_, fun i q x h1 h2 h3 => ?_, fun q hq => ?_⟩
    · rw [tmem]
      show _ = (if w.ext = e then v.mem p else v.disk w.ext)
      rcases tws g' w hw' with ⟨rfl, rfl⟩ | ⟨hx', h4⟩
      · rw [if_pos rfl]; exact hvm.symm
      · rw [if_neg (hextne g' w.ext (h.io.wOk g' w h4).1 hx')]
        exact h.view.intact g' w h4 fun m hm => by rw [← trrq]; exact hx m hm
    · rw [tdisk]
      show (if x = e then v.mem p else v.disk x) = _
      rw [if_neg (fun hc => hx g _ twg rfl hc.symm)]
      refine h.view.vdN x fun g' w hw' hp' => hx g' w ?_ hp'
      rw [twx]; exact hw'
      rintro rfl; rw [hw] at hw'; cases hw'
    · show v.mem q = (if x = e then v.mem p else v.disk x)
      rw [hrd] at h1
      have hig : i ≠ g := by rintro rfl; exact hnr h1
      rw [tbx i hig] at h2 h3
      rw [if_neg (hextne i x h3 hig)]
      exact h.view.vmR i q x h1 h2 h3
    · show v.mem q = _
      rw [tmem]
      exact h.view.vmN q fun i h1 h2 => hq i (by rw [tint]; exact h1) ((hrd i).2 h2)

/-- `schedule_write` at the end of the sequence. -/
theorem scheduleWrite_ok (E : Env D) (hE : ∀ l, E.pick l ∉ l) {dflt : D} {a : Abs D} {k : Ctx} {v : Swap.St D} {s : St D} (h : Inv dflt a k v s) {g : Nat} (hi : (s.b.blocks g).int ≠ none)
    (hr : (s.b.blocks g).refs = 0) (hnt : (s.b.blocks g).dirty = true → Late k s g) :
    ∃ b s' v', scheduleWrite E s g = some (b, s') ∧ Inv dflt a k v' s' ∧
      ((b = false ∧ s' = s ∧ v' = v ∧ (s.b.blocks g).dirty = false) ∨
       (b = true ∧ (s.b.blocks g).dirty = true ∧ ∃ e p, (s.b.blocks g).int = some p ∧ Fr ((s.setBlk g { s.b.blocks g with ext := some e, dirty := false }).setWrr g (some { buf := p, ext := e })) s')) := by
  unfold scheduleWrite
  by_cases hd : (s.b.blocks g).dirty = true
  · rw [if_pos (show (s.blk g).dirty = true from hd)]
    simp only [St.blk]
    obtain ⟨p, hp⟩ := Option.ne_none_iff_exists'.1 hi
    have hw : s.wsched g = none := by
      cases hz : s.wsched g with
      | none => rfl
      | some w => have := (h.io.wOk g w hz).2.1; rw [hd] at this; cases this
    rw [hp, hw]
    simp only
    obtain ⟨v', hv⟩ := write_ok h (e := (s.b.blocks g).ext.getD (E.pick s.b.live)) hp hr hd hw (hnt hd) (by
      cases hz : (s.b.blocks g).ext with
      | none => right; exact hE _
      | some e => left; rfl)
    obtain ⟨s', h1, h2, h3⟩ := sync_ok hv
    refine ⟨true, s', v', ?_, h2, .inr ⟨rfl, hd, (s.b.blocks g).ext.getD (E.pick s.b.live), p, rfl, by simp only [hp] at h3; exact h3⟩⟩
    have e2 : ({ ext := some ((s.b.blocks g).ext.getD (E.pick s.b.live)), int := some p, dirty := false, refs := (s.b.blocks g).refs } : SB) =
        { s.b.blocks g with ext := some ((s.b.blocks g).ext.getD (E.pick s.b.live)), dirty := false } := by rw [← hp]
    first
      | rw [h1]; rfl
      | (rw [e2, h1]; rfl)
  · rw [if_neg (show ¬ (s.blk g).dirty = true from hd)]
    exact ⟨false, s, v, rfl, h, .inl ⟨rfl, rfl, rfl, by simpa using hd⟩⟩

end Foxxll.Ahead
