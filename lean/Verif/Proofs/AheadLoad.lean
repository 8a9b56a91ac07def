import Verif.Proofs.AheadHand

set_option linter.unusedSimpArgs false
set_option linter.unusedVariables false
set_option linter.unusedSectionVars false

/-
offline_lru_prefetching: a reserved internal block is attached and its block is read.
-/
namespace Foxxll.Ahead
open Foxxll.Swap (SB Env POp Elem Op Res Abs Allowed Expected)

variable {D : Type} [Slack D]

theorem mem_insertId {l : List Nat} {i j : Nat} : j ∈ insertId l i ↔ j ∈ l ∨ j = i := by
  unfold insertId
  by_cases h : i ∈ l
  · rw [if_pos h]
    constructor
    · exact .inl
    · rintro (h1 | rfl)
      · exact h1
      · exact h
  · rw [if_neg h, List.mem_cons]; exact or_comm

theorem mem_eraseId {l : List Nat} {i j : Nat} : j ∈ eraseId l i ↔ j ∈ l ∧ j ≠ i := by
  simp [eraseId, List.mem_filter]

theorem Inv.ext_of_init {s : St D} {c : Nat} (hi : (s.b.blocks c).int = none) (h : (s.b.blocks c).isInitialized = true) :
    (s.b.blocks c).ext ≠ none ∧ (s.b.blocks c).dirty = false := by
  simp only [SB.isInitialized, SB.isInternal, SB.isExternal, hi] at h
  constructor
  · intro hc; rw [hc] at h; simp at h
  · simp at h; exact h.2

/-- The reserved block of `c` is attached. -/
def loaded (s : St D) (c q : Nat) (m : Meta) : St D :=
  { ((s.setBlk c { s.b.blocks c with int := some q }).setMeta c (some { m with reserved := none })) with schedEv := insertId s.schedEv c }

theorem loaded_ok {dflt : D} {a : Abs D} {k : Ctx} {v : Swap.St D} {s : St D} (h : Inv dflt a k v s) {c q : Nat} {m : Meta} (hm : s.sched c = some m)
    (hq : m.reserved = some q) (hdue : ∀ i, ¬ k.due i) (hstop : k.stop = false) (hf : First k.S c) (hini : (s.b.blocks c).isInitialized = true) (hmiss : k.miss = none ∨ k.miss = some c)
    (hout : k.out ≠ some c) :
    ∃ v', Inv dflt a { k with miss := none, due := fun i => i = c } v' (loaded s c q m) := by
  have hrs : rsv s c = some q := by rw [rsv_of hm]; exact hq
  obtain ⟨hic, hacq⟩ := h.plan.rsvAcq c q hrs
  obtain ⟨hex, hdy⟩ := Inv.ext_of_init hic hini
  obtain ⟨e, he⟩ := Option.ne_none_iff_exists'.1 hex
  have hbl := h.base.blocks
  have hr0 : (s.b.blocks c).refs = 0 := by
    cases hz : (s.b.blocks c).refs with
    | zero => rfl
    | succ z => exact absurd (by rw [hbl]; exact hic) (h.sw.core.refsInt c (by rw [hbl]; omega))
  have hrrc : rrq s c = none := by
    cases hz : rrq s c with
    | none => rfl
    | some x => exact absurd hic (h.io.rrqOk c x hz).1
  have hnev : c ∉ s.freeEv ∧ c ∉ s.schedEv := by
    have : c ∉ v.evict.map (·.2) := fun hc => ((h.sw.ev.mem c).1 hc).1 (by rw [hbl]; exact hic)
    rw [h.base.vev] at this
    exact ⟨fun x => this (.inl x), fun x => this (.inr (.inl x))⟩
  generalize ht : loaded s c q m = t
  have tb : t.b = { s.b with blocks := t.b.blocks } := by rw [← ht]; rfl
  have tbc : t.b.blocks c = { s.b.blocks c with int := some q } := by rw [← ht]; exact setBlk_b_same _ _ _
  have tbx : ∀ i, i ≠ c → t.b.blocks i = s.b.blocks i := fun i hi => by rw [← ht]; exact setBlk_b_other _ _ hi
  have text : ∀ i, (t.b.blocks i).ext = (s.b.blocks i).ext := by
    intro i; by_cases x : i = c
    · subst x; rw [tbc]
    · rw [tbx i x]
  have tdir : ∀ i, (t.b.blocks i).dirty = (s.b.blocks i).dirty := by
    intro i; by_cases x : i = c
    · subst x; rw [tbc]
    · rw [tbx i x]
  have tref : ∀ i, (t.b.blocks i).refs = (s.b.blocks i).refs := by
    intro i; by_cases x : i = c
    · subst x; rw [tbc]
    · rw [tbx i x]
  have tintN : ∀ i, (s.b.blocks i).int ≠ none → (t.b.blocks i).int ≠ none := by
    intro i; by_cases x : i = c
    · subst x; rw [tbc]; simp
    · rw [tbx i x]; exact id
  have trsvc : rsv t c = none := by rw [← ht]; simp [loaded, rsv]
  have trsvx : ∀ i, i ≠ c → rsv t i = rsv s i := fun i hi => by
    rw [← ht]; show rsv ((s.setBlk c _).setMeta c _) i = _; rw [rsv_setMeta, if_neg hi]; rfl
  have tgvr : ∀ i, gvr t i = gvr s i := fun i => by
    rw [← ht]; show gvr ((s.setBlk c _).setMeta c _) i = _; rw [gvr_setMeta]; split
    · rename_i x; subst x; exact (gvr_of hm).symm
    · rfl
  have trrq : ∀ i, rrq t i = rrq s i := fun i => by
    rw [← ht]; show rrq ((s.setBlk c _).setMeta c _) i = _; rw [rrq_setMeta]; split
    · rename_i x; subst x; exact (rrq_of hm).symm
    · rfl
  have tops : ∀ i, opsOf t i = opsOf s i := fun i => by
    rw [← ht]; show opsOf ((s.setBlk c _).setMeta c _) i = _; rw [opsOf_setMeta]; split
    · rename_i x; subst x; exact (opsOf_of hm).symm
    · rfl
  have topsNe : ∀ d m', t.sched d = some m' → m'.ops ≠ [] := by
    intro d m' hd
    have := h.plan.opsNe
    by_cases x : d = c
    · subst x
      have h1 : t.sched d = some { m with reserved := none } := by rw [← ht]; exact setMeta_same _ _ _
      rw [h1] at hd; cases hd; exact h.plan.opsNe d m hm
    · have h1 : t.sched d = s.sched d := by rw [← ht]; exact setMeta_other _ _ x
      rw [h1] at hd; exact h.plan.opsNe d m' hd
  have tw : t.wsched = s.wsched := by rw [← ht]; rfl
  have tnext : t.next = s.next := by rw [← ht]; rfl
  have tfe : t.freeEv = s.freeEv := by rw [← ht]; rfl
  have tse : t.schedEv = insertId s.schedEv c := by rw [← ht]; rfl
  have treads : t.reads = s.reads := by rw [← ht]; rfl
  have treqs : t.reqs = s.reqs := by rw [← ht]; rfl
  have tn : t.b.n = s.b.n := by rw [tb]
  have tfree : t.b.free = s.b.free := by rw [tb]
  have tmem : t.b.mem = s.b.mem := by rw [tb]
  have tdisk : t.b.disk = s.b.disk := by rw [tb]
  have hrd : ∀ i, i ≠ c → (Rdg { k with miss := none, due := fun i => i = c } t i ↔ Rdg k s i) := by
    intro i hi
    unfold Rdg
    rw [trrq, tgvr, treads, tw]
    simp only [hi, hdue i]
  have hrdc : Rdg { k with miss := none, due := fun i => i = c } t c := .inr ⟨by rw [trrq]; exact hrrc, .inl rfl⟩
  have hqv : q ∈ v.free := (h.base.vfree q).2 (.inr ⟨c, hrs⟩)
  generalize hv' : ({ v.set c { v.blocks c with int := some q } with free := v.free.filter (· != q), evict := Swap.insertEvict v.evict 0 c, mem := fun p => if p = q then v.disk e else v.mem p } : Swap.St D) = v'
  have vb : v'.blocks = t.b.blocks := by
    rw [← hv']; funext i
    show (if i = c then _ else _) = _
    by_cases x : i = c
    · subst x; rw [if_pos rfl, tbc, hbl]
    · rw [if_neg x, tbx i x, hbl]
  have vfree : ∀ p, p ∈ v'.free ↔ p ∈ v.free ∧ p ≠ q := by intro p; rw [← hv']; simp
  have vev : ∀ i, i ∈ v'.evict.map (·.2) ↔ i ∈ v.evict.map (·.2) ∨ i = c := by intro i; rw [← hv']; exact Swap.insert_ids _ _ _ _
  have vm : ∀ p, p ≠ q → v'.mem p = v.mem p := by intro p hp; rw [← hv']; simp [hp]
  have vmq : v'.mem q = v.disk e := by rw [← hv']; simp
  have vd : v'.disk = v.disk := by rw [← hv']; rfl
  have hsw : Swap.Inv dflt v' a := by
    refine h.sw.load (c := c) (q := q) (e := e) (by rw [hbl]; exact hic) (by rw [hbl]; exact he) hqv ?_ ?_ ?_ ?_ ?_ ?_ vfree ?_ vev ?_ ?_ vmq vd
    · rw [← hv']
    · rw [← hv']; rfl
    · rw [← hv']; rfl
    · rw [← hv']; rfl
    · rw [← hv']; rfl
    · rw [← hv']; rfl
    · rw [← hv']; exact h.sw.core.freeNd.filter _
    · rw [← hv']; exact Swap.insert_nodup _ _ h.sw.ev.nd
    · intro i p hp
      refine vm p ?_
      rintro rfl
      exact (h.sw.core.att i p hp).2.2.1 hqv
  refine ⟨v', hsw, ?_, ?_, ?_, ?_⟩
  · refine ⟨vb, ?_, ?_, ?_, ?_, ?_, fun p => ?_, by rw [tfree]; exact h.base.freeNd, fun d p hd => ?_, fun d d' p hd hd' => ?_, fun i => ?_, fun i hi => ?_⟩
    · rw [tn, ← h.base.n, ← hv']; rfl
    · rw [show t.b.held = s.b.held by rw [tb], ← h.base.held, ← hv']; rfl
    · rw [show t.b.next = s.b.next by rw [tb], ← h.base.next, ← hv']; rfl
    · rw [show t.b.remaining = s.b.remaining by rw [tb], ← h.base.remaining, ← hv']; rfl
    · rw [show t.b.max = s.b.max by rw [tb], ← h.base.max, ← hv']; rfl
    · rw [vfree, tfree, h.base.vfree]
      constructor
      · rintro ⟨h1 | ⟨d, h1⟩, h2⟩
        · exact .inl h1
        · refine .inr ⟨d, ?_⟩
          rw [trsvx]; exact h1
          rintro rfl; rw [hrs] at h1; exact h2 (Option.some.inj h1).symm
      · rintro (h1 | ⟨d, h1⟩)
        · refine ⟨.inl h1, ?_⟩
          rintro rfl; exact h.base.rsvFree c p hrs h1
        · have hdc : d ≠ c := by rintro rfl; rw [trsvc] at h1; cases h1
          rw [trsvx d hdc] at h1
          refine ⟨.inr ⟨d, h1⟩, ?_⟩
          rintro rfl; exact hdc (h.base.rsvInj d c p h1 hrs)
    · have hdc : d ≠ c := by rintro rfl; rw [trsvc] at hd; cases hd
      rw [trsvx d hdc] at hd; rw [tfree]; exact h.base.rsvFree d p hd
    · have hdc : d ≠ c := by rintro rfl; rw [trsvc] at hd; cases hd
      have hdc' : d' ≠ c := by rintro rfl; rw [trsvc] at hd'; cases hd'
      rw [trsvx d hdc] at hd; rw [trsvx d' hdc'] at hd'; exact h.base.rsvInj d d' p hd hd'
    · rw [vev, h.base.vev, tfe, tse, mem_insertId]
      constructor
      · rintro ((h1 | h1 | h1) | h1)
        · exact .inl h1
        · exact .inr (.inl (.inl h1))
        · exact .inr (.inr h1)
        · exact .inr (.inl (.inr h1))
      · rintro (h1 | (h1 | h1) | h1)
        · exact .inl (.inl h1)
        · exact .inl (.inr (.inl h1))
        · exact .inr h1
        · exact .inl (.inr (.inr h1))
    · rw [tfe] at hi; rw [tse, mem_insertId]
      rintro (h1 | rfl)
      · exact h.base.disj i hi h1
      · exact hnev.1 hi
  · refine ⟨fun d => by rw [tops]; exact h.plan.ops d, topsNe, by rw [tn]; exact h.plan.ids, fun d p hd => ?_, fun d h1 h2 h3 => ?_, fun d h1 h2 h3 => ?_, fun i h1 => ?_, fun i h1 => ?_⟩
    · have hdc : d ≠ c := by rintro rfl; rw [trsvc] at hd; cases hd
      rw [trsvx d hdc] at hd; rw [tbx d hdc]; exact h.plan.rsvAcq d p hd
    · have hdc : d ≠ c := by rintro rfl; rw [tbc] at h2; cases h2
      rw [tbx d hdc] at h2; rw [trsvx d hdc]
      refine h.plan.acqRsv d h1 h2 fun hc => ?_
      rcases hmiss with hx | hx
      · rw [hx] at hc; cases hc
      · rw [hx] at hc; exact hdc (Option.some.inj hc).symm
    · by_cases x : d = c
      · subst x; rw [tbc]; simp
      · rw [tbx d x] at h2 ⊢
        refine h.plan.pre d h1 h2 fun hc => ?_
        rcases hmiss with hx | hx
        · rw [hx] at hc; cases hc
        · rw [hx] at hc; exact x (Option.some.inj hc).symm
    · rw [tfe] at h1; rw [tdir]; exact h.plan.evF i h1
    · rw [tse, mem_insertId] at h1
      rw [tdir]
      rcases h1 with h1 | rfl
      · exact h.plan.evS i h1
      · exact .inl hacq
  · refine ⟨fun d r hd => ?_, fun d d' r => by rw [trrq, trrq]; exact h.io.rrqInj d d' r, fun d r g' w => by rw [trrq, tgvr, tw]; exact h.io.rrqW d r g' w, fun x hx => ?_,
      by rw [treads]; exact h.io.rdNd, fun d g' hd => ?_, fun d g' w => by rw [tgvr, tw]; exact h.io.gvrW d g' w, fun g' w hw' => ?_, fun d hd => ?_⟩
    · rw [trrq] at hd
      have hdc : d ≠ c := by rintro rfl; rw [hrrc] at hd; cases hd
      rw [tbx d hdc, tw, treqs]; exact h.io.rrqOk d r hd
    · rw [treads] at hx
      obtain ⟨d, x1, x2, x3⟩ := h.io.rdOk x hx
      have hdc : d ≠ c := by rintro rfl; rw [hrrc] at x1; cases x1
      exact ⟨d, by rw [trrq]; exact x1, by rw [tbx d hdc]; exact x2, by rw [tbx d hdc]; exact x3⟩
    · rw [tgvr] at hd
      obtain ⟨a1, a2, a3, a5⟩ := h.io.gvrOk d g' hd
      rw [tdir, tref]
      refine ⟨a1, a2, a3, ?_⟩
      by_cases x : d = c
      · subst x; right; rw [tbc]; exact ⟨by simp, hr0, hf⟩
      · rw [trsvx d x, tbx d x]; exact a5
    · rw [tw] at hw'
      obtain ⟨a1, a2, hh⟩ := h.io.wOk g' w hw'
      refine ⟨by rw [text]; exact a1, by rw [tdir]; exact a2, ?_⟩
      rcases hh.symm with st | ⟨a3, a4⟩
      · have hgc : g' ≠ c := by
          rintro rfl
          rcases st.2.2.2.2 with st | st
          · rw [hstop] at st; cases st
          · exact st.2 hic hf
        obtain ⟨s1, s2, s3, s4, s5⟩ := st
        refine .inr ⟨s1, s2, s3, hgc, ?_⟩
        rw [tbx g' hgc]; exact s5
      refine .inl ⟨by rw [tref]; exact a3, ?_⟩
      rcases a4 with ⟨b1, b2, b3, b4⟩ | ⟨m', b1, b2, b3, b4, b5, b6, b7⟩
      · have hgc : g' ≠ c := by rintro rfl; rw [hic] at b1; cases b1
        exact .inl ⟨by rw [tbx g' hgc]; exact b1, hgc, b3, by rw [tnext, tgvr]; exact b4⟩
      · refine .inr ⟨m', b1, b2, by rw [tgvr]; exact b3, ?_, ?_, fun hs => ?_, fun hs => ?_⟩
        · unfold bufOf at b4 ⊢
          by_cases x : m' = c
          · subst x; rw [tbc]; rw [hic, hrs] at b4; exact b4
          · rw [tbx m' x, trsvx m' x]; exact b4
        · by_cases x : g' = c
          · exact .inr x
          · rw [tbx g' x]; exact b5.imp id fun hc => absurd hc (hdue g')
        · obtain ⟨c1, c2, c3, c4, c5, c6⟩ := b6 hs
          rw [tw, text, tdir, trrq]
          exact ⟨c1, tintN m' c2, c3, c4, c5, fun hp => (c6 hp).imp id fun hc => absurd hc (hdue m')⟩
        · by_cases x : m' = c
          · exact .inr x
          · rw [tbx m' x] at hs; exact (b7 hs).imp id fun hc => absurd hc (hdue m')
    · have hd : d = c := hd
      subst hd
      rw [tbc]
      exact ⟨by simp, hr0, hdy, hex, hf⟩
  · refine ⟨fun g' w hw' hx => ?_, fun x hx => ?_, fun i p x h1 h2 h3 => ?_, fun p hp => ?_⟩
    · rw [tmem, vd]; rw [tw] at hw'
      exact h.view.intact g' w hw' fun m hm => by rw [← trrq]; exact hx m hm
    · rw [tdisk, vd]; exact h.view.vdN x fun g' w hw' => hx g' w (by rw [tw]; exact hw')
    · by_cases y : i = c
      · subst y
        rw [tbc] at h2; cases h2
        rw [text, he] at h3; cases h3
        rw [vmq, vd]
      · rw [tbx i y] at h2 h3
        rw [vm p, vd]
        · exact h.view.vmR i p x ((hrd i y).1 h1) h2 h3
        · rintro rfl; exact h.int_rsv h2 hrs
    · have hpq : p ≠ q := by rintro rfl; exact hp c (by rw [tbc]) hrdc
      rw [vm p hpq, tmem]
      refine h.view.vmN p fun i h1 h2 => ?_
      have hic' : i ≠ c := by rintro rfl; rw [hic] at h1; cases h1
      exact hp i (by rw [tbx i hic']; exact h1) ((hrd i hic').2 h2)

/-- What scheduling leaves alone. -/
structure FrS (s t : St D) : Prop where
  n : t.b.n = s.b.n
  max : t.b.max = s.b.max
  held : t.b.held = s.b.held
  freeIds : t.b.freeIds = s.b.freeIds
  refs : ∀ i, (t.b.blocks i).refs = (s.b.blocks i).refs
  ini : ∀ i, (t.b.blocks i).isInitialized = (s.b.blocks i).isInitialized
  pred : t.pred = s.pred
  out : s.b.free = [] → s.b.remaining = 0 → t.b.free = [] ∧ t.b.remaining = 0
  ev : ∀ i ∈ t.freeEv, i ∈ s.freeEv

theorem FrS.refl (s : St D) : FrS s s := ⟨rfl, rfl, rfl, rfl, fun _ => rfl, fun _ => rfl, rfl, fun h1 h2 => ⟨h1, h2⟩, fun _ h => h⟩

theorem FrS.trans {s t u : St D} (h1 : FrS s t) (h2 : FrS t u) : FrS s u :=
  ⟨h2.n.trans h1.n, h2.max.trans h1.max, h2.held.trans h1.held, h2.freeIds.trans h1.freeIds, fun i => (h2.refs i).trans (h1.refs i), fun i => (h2.ini i).trans (h1.ini i),
   h2.pred.trans h1.pred, fun x y => let z := h1.out x y; h2.out z.1 z.2, fun i hi => h1.ev i (h2.ev i hi)⟩

theorem FrR.frS {s t : St D} (h : FrR s t) : FrS s t := by
  refine ⟨by rw [h.b], by rw [h.b], by rw [h.b], by rw [h.b], h.refs, fun i => ?_, h.pred, fun h1 h2 => ⟨by rw [h.b]; exact h1, by rw [h.b]; exact h2⟩, by rw [h.freeEv]; exact fun _ h => h⟩
  simp only [SB.isInitialized, SB.isInternal, SB.isExternal, h.ext, h.dirty]
  have := h.int i
  cases h1 : (t.b.blocks i).int <;> cases h2 : (s.b.blocks i).int <;> simp_all

/-- `schedule_next_operations` 1597-1606, `initialize` 1865-1871 -/
theorem prefetch_ok (E : Env D) {dflt : D} {a : Abs D} {k : Ctx} {v : Swap.St D} {s : St D} (h : Inv dflt a k v s) {c q : Nat} (hq : rsv s c = some q)
    (hdue : ∀ i, ¬ k.due i) (hstop : k.stop = false) (hf : First k.S c) (hini : (s.b.blocks c).isInitialized = true) (hmiss : k.miss = none ∨ k.miss = some c) (hout : k.out ≠ some c) (hn : c < s.b.n) :
    ∃ s' v', prefetch E s c = some s' ∧ Inv dflt a { k with miss := none, due := fun _ => False } v' s' ∧ FrS s s' ∧ s'.freeEv = s.freeEv ∧ s'.next = s.next ∧
      (∀ i, rsv s i = none → rsv s' i = none) ∧ (∀ i, i ≠ c → (s.b.blocks i).int = none → (s'.b.blocks i).int = none) := by
  obtain ⟨m, hm, hmq⟩ := sched_of_rsv hq
  have hic := (h.plan.rsvAcq c q hq).1
  obtain ⟨v1, h1⟩ := loaded_ok h hm hmq hdue hstop hf hini hmiss hout
  have hrr : rrq (loaded s c q m) c = none := by
    show rrq ((s.setBlk c _).setMeta c _) c = none
    rw [rrq_setMeta, if_pos rfl]
    show m.readReq = none
    rw [← rrq_of hm]
    cases hz : rrq s c with
    | none => rfl
    | some x => exact absurd hic (h.io.rrqOk c x hz).1
  have hgw : ∀ g w, gvr (loaded s c q m) c = some g → (loaded s c q m).wsched g = some w → w.shallRead = false := by
    intro g w hg hw
    have hg : gvr ((s.setBlk c _).setMeta c (some _)) c = some g := hg
    rw [gvr_setMeta, if_pos rfl] at hg
    have hg : gvr s c = some g := by rw [gvr_of hm]; exact hg
    have hw : s.wsched g = some w := hw
    rcases (h.io.wOk g w hw).2.2 with ⟨_, ⟨_, _, b3, _⟩ | ⟨m', b1, b2, b3, b4, b5, b6, b7⟩⟩ | st
    · exact b3
    · have := h.io.gvrW c g w hg hw
      rw [b1] at this; cases this
      cases hz : w.shallRead with
      | false => rfl
      | true => exact absurd hic (b6 hz).2.1
    · exact st.2.2.1
  obtain ⟨j, hj⟩ : ∃ j, s.b.n + 1 = j + 2 := ⟨s.b.n - 1, by omega⟩
  obtain ⟨s', v', h2, h3, h4⟩ := scheduleRead_ok E j h1 (fun i => Iff.rfl) hrr hgw
  refine ⟨s', v', ?_, h3, ?_, h4.freeEv, h4.next, ?_, ?_⟩
  · unfold prefetch
    rw [hm]
    simp only
    rw [attach_ok _ hic, hmq, Option.bind_some, hj]
    exact h2
  · refine FrS.trans ?_ h4.frS
    refine ⟨rfl, rfl, rfl, rfl, fun i => ?_, fun i => ?_, rfl, fun x y => ⟨x, y⟩, fun _ x => x⟩
    · show ((s.setBlk c _).b.blocks i).refs = _
      by_cases x : i = c
      · subst x; rw [setBlk_b_same]
      · rw [setBlk_b_other _ _ x]
    · show ((s.setBlk c _).b.blocks i).isInitialized = _
      by_cases x : i = c
      · subst x; rw [setBlk_b_same, hini]; simp [SB.isInitialized, SB.isInternal]
      · rw [setBlk_b_other _ _ x]
  · intro i hi
    rw [h4.rsv]
    show rsv ((s.setBlk c _).setMeta c (some _)) i = none
    rw [rsv_setMeta]; split
    · rfl
    · exact hi
  · intro i hx hi
    rw [h4.int]
    show ((s.setBlk c _).b.blocks i).int = _
    rw [setBlk_b_other _ _ hx]; exact hi

end Foxxll.Ahead
