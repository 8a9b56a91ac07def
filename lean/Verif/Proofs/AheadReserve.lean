import Verif.Proofs.AheadLoad

set_option linter.unusedSimpArgs false
set_option linter.unusedVariables false
set_option linter.unusedSectionVars false

namespace Foxxll.Swap

variable {D : Type}

/-- Further internal blocks are allocated. -/
theorem Inv.grow {dflt : D} {a : Abs D} {v : St D} (h : Inv dflt v a) (j : Nat) (hj : j ≤ v.remaining) :
    Inv dflt { v with remaining := v.remaining - j, next := v.next + j, free := List.range' v.next j ++ v.free } a := by
  refine ⟨?_, ⟨h.ev.nd, h.ev.mem, h.ev.valid⟩, fun i => ⟨(h.ok i).refs, (h.ok i).idleIn, (h.ok i).idleOut, (h.ok i).used⟩, h.held⟩
  constructor
  · have := h.core.total
    show v.next + j + (v.remaining - j) = v.max
    omega
  · refine List.nodup_append.2 ⟨List.nodup_range', h.core.freeNd, ?_⟩
    rintro x hx y hy rfl
    have := h.core.freeLt x hy
    have := List.mem_range'_1.1 hx
    omega
  · intro p hp
    show p < v.next + j
    rcases List.mem_append.1 hp with hp | hp
    · have := List.mem_range'_1.1 hp; omega
    · have := h.core.freeLt p hp; omega
  · intro i p hi
    have := h.core.att i p hi
    refine ⟨this.1, ?_, fun hc => ?_, by simp⟩
    · show p < v.next + j; have := this.2.1; omega
    · rcases List.mem_append.1 hc with hc | hc
      · have := List.mem_range'_1.1 hc; omega
      · exact this.2.2.1 hc
  · exact h.core.inj
  · intro p hp; cases hp
  · intro p hp
    have hp : p < v.next + j := hp
    by_cases hx : p < v.next
    · rcases h.core.cover p hx with h1 | h1 | h1
      · exact .inl (List.mem_append.2 (.inr h1))
      · cases h1
      · exact .inr (.inr h1)
    · exact .inl (List.mem_append.2 (.inl (List.mem_range'_1.2 ⟨by omega, by omega⟩)))
  · exact h.core.dirtyInt
  · exact h.core.refsInt
  · exact h.core.extOwn
  · exact h.core.extLive

end Foxxll.Swap

/-
offline_lru_prefetching: an internal block is found for an operation.
-/
namespace Foxxll.Ahead
open Foxxll.Swap (SB Env POp Elem Op Res Abs Allowed Expected)

variable {D : Type} [Slack D]

theorem grow_ok {dflt : D} {a : Abs D} {k : Ctx} {v : Swap.St D} {s : St D} (h : Inv dflt a k v s) (j : Nat) (hj : j ≤ s.b.remaining) (hf : s.b.free = []) :
    ∃ v', Inv dflt a k v' { s with b := { s.b with remaining := s.b.remaining - j, next := s.b.next + j, free := List.range' s.b.next j } } := by
  refine ⟨_, h.sw.grow j (by rw [h.base.remaining]; exact hj), ?_, ?_, ?_, ?_⟩
  · refine ⟨h.base.blocks, h.base.n, h.base.held, ?_, ?_, h.base.max, fun p => ?_, List.nodup_range', fun c p hc hp => ?_, h.base.rsvInj, h.base.vev, h.base.disj⟩
    · show v.next + j = _; rw [h.base.next]
    · show v.remaining - j = _; rw [h.base.remaining]
    · show p ∈ List.range' v.next j ++ v.free ↔ p ∈ List.range' s.b.next j ∨ ∃ c, rsv s c = some p
      rw [List.mem_append, h.base.next, h.base.vfree, hf]
      simp
    · have hc : rsv s c = some p := hc
      have h1 := h.sw.core.freeLt p ((h.base.vfree p).2 (.inr ⟨c, hc⟩))
      rw [h.base.next] at h1
      have := List.mem_range'_1.1 hp
      omega
  · exact ⟨h.plan.ops, h.plan.opsNe, h.plan.ids, h.plan.rsvAcq, h.plan.acqRsv, h.plan.pre, h.plan.evF, h.plan.evS⟩
  · exact ⟨h.io.rrqOk, h.io.rrqInj, h.io.rrqW, h.io.rdOk, h.io.rdNd, h.io.gvrOk, h.io.gvrW, h.io.wOk, h.io.dueOk⟩
  · exact ⟨h.view.intact, h.view.vdN, h.view.vmR, h.view.vmN⟩

theorem take_ok {dflt : D} {a : Abs D} {k : Ctx} {v : Swap.St D} {s : St D} (h : Inv dflt a k v s) {c p : Nat} {rest : List Nat} {m : Meta} (hm : s.sched c = some m)
    (hf : s.b.free = p :: rest) (hic : (s.b.blocks c).int = none) (hac : HasAcq k.S c) (hrc : rsv s c = none) :
    Inv dflt a k v ({ s with b := { s.b with free := rest } }.setMeta c (some { m with reserved := some p })) := by
  have hgvc : gvr s c = none := by
    cases hz : gvr s c with
    | none => rfl
    | some x =>
      rcases (h.io.gvrOk c x hz).2.2.2 with h1 | h1
      · exact absurd hrc h1
      · exact absurd hic h1.1
  have hrrc : rrq s c = none := by
    cases hz : rrq s c with
    | none => rfl
    | some x => exact absurd hic (h.io.rrqOk c x hz).1
  generalize ht : ({ s with b := { s.b with free := rest } } : St D).setMeta c (some { m with reserved := some p }) = t
  have tbl : t.b.blocks = s.b.blocks := by rw [← ht]; rfl
  have tfree : t.b.free = rest := by rw [← ht]; rfl
  have trsvc : rsv t c = some p := by rw [← ht, rsv_setMeta, if_pos rfl]
  have trsvx : ∀ i, i ≠ c → rsv t i = rsv s i := fun i hi => by rw [← ht, rsv_setMeta, if_neg hi]; rfl
  have tgvr : ∀ i, gvr t i = gvr s i := fun i => by
    rw [← ht, gvr_setMeta]; split
    · rename_i x; subst x; exact (gvr_of hm).symm
    · rfl
  have trrq : ∀ i, rrq t i = rrq s i := fun i => by
    rw [← ht, rrq_setMeta]; split
    · rename_i x; subst x; exact (rrq_of hm).symm
    · rfl
  have tops : ∀ i, opsOf t i = opsOf s i := fun i => by
    rw [← ht, opsOf_setMeta]; split
    · rename_i x; subst x; exact (opsOf_of hm).symm
    · rfl
  have tw : t.wsched = s.wsched := by rw [← ht]; rfl
  have tnext : t.next = s.next := by rw [← ht]; rfl
  have tfe : t.freeEv = s.freeEv := by rw [← ht]; rfl
  have tse : t.schedEv = s.schedEv := by rw [← ht]; rfl
  have treads : t.reads = s.reads := by rw [← ht]; rfl
  have treqs : t.reqs = s.reqs := by rw [← ht]; rfl
  have tn : t.b.n = s.b.n := by rw [← ht]; rfl
  have tmem : t.b.mem = s.b.mem := by rw [← ht]; rfl
  have tdisk : t.b.disk = s.b.disk := by rw [← ht]; rfl
  have hnd := h.base.freeNd
  rw [hf] at hnd
  obtain ⟨hn1, hn2⟩ := List.nodup_cons.1 hnd
  have hrsne : ∀ d x, rsv s d = some x → x ≠ p := by
    rintro d x hd rfl; exact h.base.rsvFree d x hd (by rw [hf]; simp)
  have hrd : ∀ i, Rdg k t i ↔ Rdg k s i := by
    intro i; unfold Rdg; rw [trrq, tgvr, treads, tw]
  refine ⟨h.sw, ?_, ?_, ?_, ?_⟩
  · refine ⟨by rw [tbl]; exact h.base.blocks, by rw [tn]; exact h.base.n, ?_, ?_, ?_, ?_, fun x => ?_, by rw [tfree]; exact hn2, fun d x hd => ?_, fun d d' x hd hd' => ?_,
      by rw [tfe, tse]; exact h.base.vev, by rw [tfe, tse]; exact h.base.disj⟩
    · rw [← ht]; exact h.base.held
    · rw [← ht]; exact h.base.next
    · rw [← ht]; exact h.base.remaining
    · rw [← ht]; exact h.base.max
    · rw [h.base.vfree, hf, tfree, List.mem_cons]
      constructor
      · rintro ((rfl | h1) | ⟨d, h1⟩)
        · exact .inr ⟨c, trsvc⟩
        · exact .inl h1
        · refine .inr ⟨d, ?_⟩
          rw [trsvx]; exact h1
          rintro rfl; rw [hrc] at h1; cases h1
      · rintro (h1 | ⟨d, h1⟩)
        · exact .inl (.inr h1)
        · by_cases e : d = c
          · subst e; rw [trsvc] at h1; cases h1; exact .inl (.inl rfl)
          · rw [trsvx d e] at h1; exact .inr ⟨d, h1⟩
    · rw [tfree]
      by_cases e : d = c
      · subst e; rw [trsvc] at hd; cases hd; exact hn1
      · rw [trsvx d e] at hd
        have := h.base.rsvFree d x hd
        rw [hf] at this; exact fun hc => this (List.mem_cons_of_mem _ hc)
    · by_cases e : d = c <;> by_cases e' : d' = c
      · rw [e, e']
      · subst e; rw [trsvc] at hd; cases hd; rw [trsvx d' e'] at hd'; exact absurd rfl (hrsne d' p hd')
      · subst e'; rw [trsvc] at hd'; cases hd'; rw [trsvx d e] at hd; exact absurd rfl (hrsne d p hd)
      · rw [trsvx d e] at hd; rw [trsvx d' e'] at hd'; exact h.base.rsvInj d d' x hd hd'
  · refine ⟨fun d => by rw [tops]; exact h.plan.ops d, fun d m' hd => ?_, by rw [tn]; exact h.plan.ids, fun d x hd => ?_, fun d h1 h2 h3 => ?_, by rw [tbl]; exact h.plan.pre,
      by rw [tfe, tbl]; exact h.plan.evF, by rw [tse, tbl]; exact h.plan.evS⟩
    · by_cases e : d = c
      · subst e
        have h1 : t.sched d = some { m with reserved := some p } := by rw [← ht]; exact setMeta_same _ _ _
        rw [h1] at hd; cases hd; exact h.plan.opsNe d m hm
      · have h1 : t.sched d = s.sched d := by rw [← ht]; exact setMeta_other _ _ e
        rw [h1] at hd; exact h.plan.opsNe d m' hd
    · rw [tbl]
      by_cases e : d = c
      · subst e; exact ⟨hic, hac⟩
      · rw [trsvx d e] at hd; exact h.plan.rsvAcq d x hd
    · rw [tbl] at h2
      by_cases e : d = c
      · subst e; rw [trsvc]; simp
      · rw [trsvx d e]; exact h.plan.acqRsv d h1 h2 h3
  · refine ⟨by simp only [trrq, tbl, tw, treqs]; exact h.io.rrqOk, by simp only [trrq]; exact h.io.rrqInj, by simp only [trrq, tgvr, tw]; exact h.io.rrqW,
      by simp only [treads, trrq, tbl]; exact h.io.rdOk, by rw [treads]; exact h.io.rdNd, fun d g' hd => ?_, by simp only [tgvr, tw]; exact h.io.gvrW, fun g' w hw' => ?_, by simp only [tbl]; exact h.io.dueOk⟩
    · rw [tgvr] at hd
      have e : d ≠ c := by rintro rfl; rw [hgvc] at hd; cases hd
      rw [trsvx d e, tbl]; exact h.io.gvrOk d g' hd
    · rw [tw] at hw'
      rw [tbl]
      obtain ⟨a1, a2, ⟨a3, a4⟩ | a4⟩ := h.io.wOk g' w hw'
      case inr => exact ⟨a1, a2, .inr (a4.same rfl rfl id ⟨rfl, rfl⟩ (by rw [tbl]))⟩
      refine ⟨a1, a2, .inl ⟨a3, ?_⟩⟩
      unfold Holder at a4 ⊢
      simp only [tbl, tnext, tgvr, tw, trrq]
      rcases a4 with a4 | ⟨m', b1, b2, b3, b4, b5⟩
      · exact .inl a4
      · have e : m' ≠ c := by rintro rfl; rw [hgvc] at b3; cases b3
        exact .inr ⟨m', b1, b2, b3, by unfold bufOf at b4 ⊢; rw [tbl, trsvx m' e]; exact b4, b5⟩
  · refine ⟨by simp only [tw, trrq, tmem]; exact h.view.intact, by simp only [tw, tdisk]; exact h.view.vdN, by simp only [tbl, hrd]; exact h.view.vmR, by simp only [tbl, hrd, tmem]; exact h.view.vmN⟩

/-- Other lists of evictable blocks. -/
theorem Inv.lists {dflt : D} {a : Abs D} {k : Ctx} {v : Swap.St D} {s : St D} (h : Inv dflt a k v s) (fe se : List Nat) (out : Option Nat)
    (hu : ∀ i, (i ∈ fe ∨ i ∈ se ∨ out = some i) ↔ (i ∈ s.freeEv ∨ i ∈ s.schedEv ∨ k.out = some i)) (hdj : ∀ i, i ∈ fe → i ∉ se)
    (hF : ∀ i, i ∈ fe → ¬ HasAcq k.S i ∧ ((s.b.blocks i).dirty = true → POp.deinit ∉ opsIn k.S i))
    (hS : ∀ i, i ∈ se → HasAcq k.S i ∨ ((s.b.blocks i).dirty = true ∧ POp.deinit ∈ opsIn k.S i) ∨ shallClean (opsIn k.S i) = true) :
    Inv dflt a { k with out := out } v { s with freeEv := fe, schedEv := se } :=
  ⟨h.sw, ⟨h.base.blocks, h.base.n, h.base.held, h.base.next, h.base.remaining, h.base.max, h.base.vfree, h.base.freeNd, h.base.rsvFree, h.base.rsvInj,
      fun i => (h.base.vev i).trans (hu i).symm, hdj⟩,
    ⟨h.plan.ops, h.plan.opsNe, h.plan.ids, h.plan.rsvAcq, h.plan.acqRsv, h.plan.pre, hF, hS⟩,
    ⟨h.io.rrqOk, h.io.rrqInj, h.io.rrqW, h.io.rdOk, h.io.rdNd, h.io.gvrOk, h.io.gvrW, h.io.wOk, h.io.dueOk⟩,
    ⟨h.view.intact, h.view.vdN, h.view.vmR, h.view.vmN⟩⟩

theorem foldl_min_mem (l : List Nat) : ∀ x, l.foldl min x = x ∨ l.foldl min x ∈ l := by
  induction l with
  | nil => intro x; exact .inl rfl
  | cons y l ih =>
    intro x
    simp only [List.foldl_cons]
    rcases ih (min x y) with h | h
    · rw [h]
      by_cases hx : x ≤ y
      · left; omega
      · right; rw [show min x y = y by omega]; simp
    · right; exact List.mem_cons_of_mem _ h

theorem firstId_mem {l : List Nat} {g : Nat} (h : firstId l = some g) : g ∈ l := by
  cases l with
  | nil => cases h
  | cons x l =>
    simp only [firstId, Option.some.injEq] at h
    rcases foldl_min_mem l x with h1 | h1
    · rw [← h, h1]; simp
    · rw [← h]; exact List.mem_cons_of_mem _ h1

theorem firstId_none {l : List Nat} (h : firstId l = none) : l = [] := by
  cases l with
  | nil => rfl
  | cons x l => cases h

theorem scheduleWrite_next (E : Env D) (s : St D) (g : Nat) (l : List Elem) :
    scheduleWrite E (s.withNext l) g = (scheduleWrite E s g).map fun r => (r.1, r.2.withNext l) := by
  unfold scheduleWrite
  by_cases hd : (s.blk g).dirty = true
  · rw [if_pos hd, if_pos (show ((s.withNext l).blk g).dirty = true from hd)]
    show (match (s.blk g).int with | none => none | some p => _) = _
    cases hp : (s.blk g).int with
    | none => rfl
    | some p =>
      simp only
      show (match s.wsched g with | some _ => none | none => _) = _
      cases s.wsched g with
      | some _ => rfl
      | none =>
        simp only
        rw [← hp]
        have e := sync_next ((s.setBlk g { ext := some ((s.blk g).ext.getD (E.pick s.b.live)), int := (s.blk g).int, dirty := false, refs := (s.blk g).refs }).setWrr g
          (some { buf := p, ext := (s.blk g).ext.getD (E.pick s.b.live) })) l
        refine Eq.trans (congrArg (Option.map fun s1 => (true, s1)) e) ?_
        rw [Option.map_map, Option.map_map]
        rfl
  · rw [if_neg hd, if_neg (show ¬ ((s.withNext l).blk g).dirty = true from hd)]
    rfl

/-- The client thread may schedule further operations. -/
structure Sch (k : Ctx) (s : St D) : Prop where
  due : ∀ i, ¬ k.due i
  stop : k.stop = false
  out : k.out = none
  cur : ∀ y, k.cur = some y → y.id ∈ s.freeEv → touches y.op = false
  bud : ∀ y, k.cur = some y → (s.b.blocks y.id).isInitialized = true → s.b.free = [] ∧ s.b.remaining = 0 ∧ ∀ i ∈ s.freeEv, i = y.id

theorem Sch.fr {k k' : Ctx} {s t : St D} (h : Sch k s) (f : FrS s t) (hc : k'.cur = k.cur) (hst : k'.stop = k.stop) (ho : k'.out = none) (hd : ∀ i, ¬ k'.due i) : Sch k' t := by
  refine ⟨hd, hst.trans h.stop, ho, fun y hy hi => h.cur y (hc.symm.trans hy) (f.ev _ hi), fun y hy hi => ?_⟩
  rw [f.ini] at hi
  obtain ⟨h1, h2, h3⟩ := h.bud y (hc.symm.trans hy) hi
  obtain ⟨h4, h5⟩ := f.out h1 h2
  exact ⟨h4, h5, fun i hi => h3 i (f.ev i hi)⟩

/-- With operations still to schedule, every write request has a taker. -/
theorem Inv.taker_some {dflt : D} {a : Abs D} {k : Ctx} {v : Swap.St D} {s : St D} (h : Inv dflt a k v s) (hn : s.next ≠ []) {g : Nat} {w : Wrr} (hw : s.wsched g = some w) :
    w.taker ≠ none ∨ Stray k s g w := by
  rcases (h.io.wOk g w hw).2.2 with ⟨_, ⟨_, _, _, b4 | b4⟩ | ⟨m', b1, _⟩⟩ | st
  · exact absurd b4.2.1 hn
  · left; rw [b4.1]; simp
  · left; rw [b1]; simp
  · exact .inr st

theorem Inv.free_wsched {dflt : D} {a : Abs D} {k : Ctx} {v : Swap.St D} {s : St D} (h : Inv dflt a k v s) (hn : s.next ≠ []) {g : Nat} (hi : (s.b.blocks g).int ≠ none)
    (hd : ¬ k.due g) (ha : ¬ HasAcq k.S g) : ∀ w, s.wsched g = some w → Stray k s g w := by
  intro w hw
  rcases (h.io.wOk g w hw).2.2 with ⟨_, ⟨_, _, _, b4 | b4⟩ | ⟨m', b1, b2, b3, b4, b5 | b5, b6⟩⟩ | st
  · exact absurd b4.2.1 hn
  · exact absurd (h.io.gvrOk g g b4.2).1.hasAcq ha
  · exact absurd b5 hi
  · exact absurd b5 hd
  · exact st

theorem keepOp_false {d : Bool} {o : POp} (h1 : isAcq o = false) (h2 : d = true → o ≠ .deinit) : keepOp d o = false := by
  cases o <;> simp_all [keepOp, isAcq]

end Foxxll.Ahead
