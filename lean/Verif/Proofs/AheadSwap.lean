import Verif.Proofs.AheadIo
import Verif.Proofs.AheadView

set_option linter.unusedSimpArgs false
set_option linter.unusedVariables false
set_option linter.unusedSectionVars false

/-
offline_lru_prefetching: exchange of internal blocks in `schedule_read`.
-/
namespace Foxxll.Ahead
open Foxxll.Swap (SB Env POp Elem Op Res Abs Allowed Expected swapNames swapNames_invol swapNames_inj)

variable {D : Type} [Slack D]

/-- The internal block `p` of `c` and the attached or reserved block `q` of `o` are exchanged, and the givers. -/
structure Swapped (s t : St D) (c o p q : Nat) : Prop where
  b : t.b = { s.b with blocks := t.b.blocks }
  bc : t.b.blocks c = { s.b.blocks c with int := some q }
  bo : t.b.blocks o = { s.b.blocks o with int := (s.b.blocks o).int.map fun _ => p }
  bx : ∀ i, i ≠ c → i ≠ o → t.b.blocks i = s.b.blocks i
  freeEv : t.freeEv = s.freeEv
  schedEv : t.schedEv = s.schedEv
  next : t.next = s.next
  pred : t.pred = s.pred
  reads : t.reads = s.reads
  reqs : t.reqs = s.reqs
  rsvO : rsv t o = (rsv s o).map fun _ => p
  rsvX : ∀ i, i ≠ o → rsv t i = rsv s i
  rrq : ∀ i, rrq t i = rrq s i
  opsOf : ∀ i, opsOf t i = opsOf s i
  opsNe : ∀ d m, t.sched d = some m → ∃ m', s.sched d = some m' ∧ m'.ops = m.ops
  gc : gvr t c = (s.wsched c).map fun _ => c
  go : gvr t o = (gvr s c).bind fun g => (s.wsched g).map fun _ => g
  gx : ∀ i, i ≠ c → i ≠ o → gvr t i = gvr s i
  wc : t.wsched c = (s.wsched c).map fun w => { w with taker := some c }
  wg : ∀ g, gvr s c = some g → g ≠ c → t.wsched g = (s.wsched g).map fun w => { w with taker := some o }
  wx : ∀ g, g ≠ c → gvr s c ≠ some g → t.wsched g = s.wsched g

theorem swap_ok {dflt : D} {a : Abs D} {k : Ctx} {v : Swap.St D} {s t : St D} (h : Inv dflt a k v s) {c o p q : Nat} (hs : Swapped s t c o p q)
    (hd : k.due c) (hne : o ≠ c) (hrc : Ahead.rrq s c = none) (hro : Ahead.rrq s o = none) (hgo : gvr s o = some c)
    (hq : bufOf s o = some q) (hp : (s.b.blocks c).int = some p) (hmq : ∀ e, (s.b.blocks c).ext = some e → s.b.mem q = v.disk e)
    (hod : (s.b.blocks o).int ≠ none → k.due o) (hgw : ∀ g w, gvr s c = some g → s.wsched g = some w → w.shallRead = false)
    (hcw : ∀ w, s.wsched c = some w → w.shallRead = false) :
    ∃ v', Inv dflt a { k with due := fun i => k.due i ∧ i ≠ c } v' t := by
  obtain ⟨d1, d2, d3, d4, d5⟩ := h.io.dueOk c hd
  obtain ⟨e0, he0⟩ := Option.ne_none_iff_exists'.1 d4
  have hfl : ∀ i, (t.b.blocks i).ext = (s.b.blocks i).ext ∧ (t.b.blocks i).dirty = (s.b.blocks i).dirty ∧ (t.b.blocks i).refs = (s.b.blocks i).refs := by
    intro i
    by_cases e1 : i = c
    · subst e1; rw [hs.bc]; exact ⟨rfl, rfl, rfl⟩
    · by_cases e2 : i = o
      · subst e2; rw [hs.bo]; exact ⟨rfl, rfl, rfl⟩
      · rw [hs.bx i e1 e2]; exact ⟨rfl, rfl, rfl⟩
  have hext := fun i => (hfl i).1
  have hdir := fun i => (hfl i).2.1
  have href := fun i => (hfl i).2.2
  have hintN : ∀ i, (t.b.blocks i).int = none ↔ (s.b.blocks i).int = none := by
    intro i
    by_cases e1 : i = c
    · subst e1; rw [hs.bc, hp]; simp
    · by_cases e2 : i = o
      · subst e2; rw [hs.bo]; simp
      · rw [hs.bx i e1 e2]
  have hini : ∀ i, (t.b.blocks i).isInitialized = (s.b.blocks i).isInitialized := by
    intro i
    have h1 : (t.b.blocks i).int.isSome = (s.b.blocks i).int.isSome := by
      have := hintN i
      cases hx : (t.b.blocks i).int <;> cases hy : (s.b.blocks i).int <;> simp_all
    simp only [SB.isInitialized, SB.isExternal, SB.isInternal, h1, hext, hdir]
  have hrsvN : ∀ i, rsv t i = none ↔ rsv s i = none := by
    intro i
    by_cases e2 : i = o
    · subst e2; rw [hs.rsvO]; simp
    · rw [hs.rsvX i e2]
  -- who owns q
  have hqo : ((s.b.blocks o).int = some q ∧ k.due o) ∨ ((s.b.blocks o).int = none ∧ rsv s o = some q) := by
    unfold bufOf at hq
    cases hi : (s.b.blocks o).int with
    | none => rw [hi] at hq; exact .inr ⟨rfl, hq⟩
    | some x =>
      rw [hi] at hq; simp only [Option.some_or, Option.some.injEq] at hq
      subst hq; exact .inl ⟨rfl, hod (by rw [hi]; simp)⟩
  have hqi : ∀ i, (s.b.blocks i).int = some q → i = o := by
    intro i hi
    rcases hqo with ⟨h1, _⟩ | ⟨_, h1⟩
    · exact h.int_inj hi h1
    · exact (h.int_rsv hi h1).elim
  have hqr : ∀ i, rsv s i = some q → i = o := by
    intro i hi
    rcases hqo with ⟨h1, _⟩ | ⟨_, h1⟩
    · exact (h.int_rsv h1 hi).elim
    · exact h.base.rsvInj i o q hi h1
  have hpi : ∀ i, (s.b.blocks i).int = some p → i = c := fun i hi => h.int_inj hi hp
  have hpr : ∀ i, rsv s i ≠ some p := fun i hi => h.int_rsv hp hi
  have hpq : p ≠ q := by rintro rfl; exact hne (hqi c hp).symm
  have hintO : ∀ i x, i ≠ c → i ≠ o → (s.b.blocks i).int = some x → swapNames p q x = x := by
    intro i x h1 h2 h3
    unfold swapNames
    rw [if_neg, if_neg]
    · rintro rfl; exact h2 (hqi i h3)
    · rintro rfl; exact h1 (hpi i h3)
  have hpf : p ∉ s.b.free := by
    intro hc
    have h1 := h.sw.core.att c p (by rw [h.base.blocks]; exact hp)
    exact h1.2.2.1 ((h.base.vfree p).2 (.inl hc))
  have hqf : q ∉ s.b.free := by
    rcases hqo with ⟨h1, _⟩ | ⟨_, h1⟩
    · intro hc
      have h1 := h.sw.core.att o q (by rw [h.base.blocks]; exact h1)
      exact h1.2.2.1 ((h.base.vfree q).2 (.inl hc))
    · exact h.base.rsvFree o q h1
  have hplt : p < v.next := (h.sw.core.att c p (by rw [h.base.blocks]; exact hp)).2.1
  have hqlt : q < v.next := by
    rcases hqo with ⟨h1, _⟩ | ⟨_, h1⟩
    · exact (h.sw.core.att o q (by rw [h.base.blocks]; exact h1)).2.1
    · exact h.sw.core.freeLt q ((h.base.vfree q).2 (.inr ⟨o, h1⟩))
  -- write requests
  have hwct : ∀ w, s.wsched c = some w → w.taker = some o := fun w hw => h.io.gvrW o c w hgo hw
  have hbco := (h.io.gvrOk o c hgo).1
  have hgne : ∀ g w, gvr s c = some g → s.wsched g = some w → g ≠ c ∧ g ≠ o := by
    intro g w h1 h2
    refine ⟨?_, ?_⟩
    · rintro rfl
      have h3 := hwct w h2
      have h4 := h.io.gvrW g g w h1 h2
      rw [h3] at h4; exact hne (Option.some.inj h4)
    · rintro rfl
      exact hbco.asymm (h.io.gvrOk c g h1).1 hne
  have hwf : ∀ g w', t.wsched g = some w' → ∃ w, s.wsched g = some w ∧ w' = { w with taker := w'.taker } ∧
      ((g = c ∧ w'.taker = some c) ∨ (g ≠ c ∧ g ≠ o ∧ gvr s c = some g ∧ w'.taker = some o) ∨ (g ≠ c ∧ gvr s c ≠ some g ∧ w' = w)) := by
    intro g w' hw'
    by_cases e1 : g = c
    · subst e1
      rw [hs.wc] at hw'
      cases hw : s.wsched g with
      | none => rw [hw] at hw'; cases hw'
      | some w => rw [hw] at hw'; simp only [Option.map_some, Option.some.injEq] at hw'; subst hw'; exact ⟨w, rfl, rfl, .inl ⟨rfl, rfl⟩⟩
    · by_cases e2 : gvr s c = some g
      · rw [hs.wg g e2 e1] at hw'
        cases hw : s.wsched g with
        | none => rw [hw] at hw'; cases hw'
        | some w =>
          rw [hw] at hw'; simp only [Option.map_some, Option.some.injEq] at hw'; subst hw'
          exact ⟨w, rfl, rfl, .inr (.inl ⟨e1, (hgne g w e2 hw).2, e2, rfl⟩)⟩
      · rw [hs.wx g e1 e2] at hw'; exact ⟨w', hw', rfl, .inr (.inr ⟨e1, e2, rfl⟩)⟩
  have hwn : ∀ g, t.wsched g = none ↔ s.wsched g = none := by
    intro g
    by_cases e1 : g = c
    · subst e1; rw [hs.wc]; simp
    · by_cases e2 : gvr s c = some g
      · rw [hs.wg g e2 e1]; simp
      · rw [hs.wx g e1 e2]
  -- forward: an old request
  have hwb : ∀ g w, s.wsched g = some w → ∃ tk, t.wsched g = some { w with taker := tk } := by
    intro g w hw
    cases hw' : t.wsched g with
    | none => rw [(hwn g).1 hw'] at hw; cases hw
    | some w' =>
      obtain ⟨w2, h1, h2, _⟩ := hwf g w' hw'
      rw [hw] at h1; cases h1
      exact ⟨w'.taker, by rw [h2]⟩
  -- givers
  have hgf : ∀ d g, gvr t d = some g → (d = c ∧ g = c ∧ ∃ w, s.wsched c = some w) ∨ (d = o ∧ gvr s c = some g ∧ ∃ w, s.wsched g = some w) ∨
      (d ≠ c ∧ d ≠ o ∧ gvr s d = some g) := by
    intro d g hg
    by_cases e1 : d = c
    · subst e1
      rw [hs.gc] at hg
      cases hw : s.wsched d with
      | none => rw [hw] at hg; cases hg
      | some w => rw [hw] at hg; simp only [Option.map_some, Option.some.injEq] at hg; exact .inl ⟨rfl, hg.symm, w, rfl⟩
    · by_cases e2 : d = o
      · subst e2
        rw [hs.go] at hg
        cases h1 : gvr s c with
        | none => rw [h1] at hg; cases hg
        | some g' =>
          rw [h1] at hg; simp only [Option.bind_some] at hg
          cases hw : s.wsched g' with
          | none => rw [hw] at hg; cases hg
          | some w => rw [hw] at hg; simp only [Option.map_some, Option.some.injEq] at hg; subst hg; exact .inr (.inl ⟨rfl, rfl, w, hw⟩)
      · rw [hs.gx d e1 e2] at hg; exact .inr (.inr ⟨e1, e2, hg⟩)
  have hod' : ∀ i, (t.b.blocks i).int ≠ none ↔ (s.b.blocks i).int ≠ none := fun i => by rw [ne_eq, ne_eq, hintN]
  have hrd : ∀ i, i ≠ c → i ≠ o → (Rdg { k with due := fun i => k.due i ∧ i ≠ c } t i ↔ Rdg k s i) := by
    intro i e1 e2
    unfold Rdg
    rw [hs.rrq, hs.reads, hs.gx i e1 e2]
    constructor
    · rintro (h1 | ⟨h1, h2⟩)
      · exact .inl h1
      · refine .inr ⟨h1, ?_⟩
        rcases h2 with h2 | ⟨g, w', h2, h3, h4⟩
        · exact .inl h2.1
        · obtain ⟨w, h5, h6, _⟩ := hwf g w' h3
          rw [h6] at h4
          exact .inr ⟨g, w, h2, h5, h4⟩
    · rintro (h1 | ⟨h1, h2⟩)
      · exact .inl h1
      · refine .inr ⟨h1, ?_⟩
        rcases h2 with h2 | ⟨g, w, h2, h3, h4⟩
        · exact .inl ⟨h2, e1⟩
        · obtain ⟨tk, h5⟩ := hwb g w h3
          exact .inr ⟨g, _, h2, h5, h4⟩
  have hrdc : ¬ Rdg { k with due := fun i => k.due i ∧ i ≠ c } t c := by
    unfold Rdg
    rw [hs.rrq, hrc]
    rintro (⟨r, h1, _⟩ | ⟨_, h2⟩)
    · cases h1
    · rcases h2 with h2 | ⟨g, w', h2, h3, h4⟩
      · exact h2.2 rfl
      · rcases hgf c g h2 with ⟨_, rfl, w, hw⟩ | ⟨h5, _⟩ | ⟨h5, _⟩
        · obtain ⟨w2, h5, h6, _⟩ := hwf g w' h3
          rw [h6] at h4; have := hcw w2 h5; rw [this] at h4; cases h4
        · exact hne h5.symm
        · exact h5 rfl
  have hvp : v.mem p = v.disk e0 := h.view.vmR c p e0 (.inr ⟨hrc, .inl hd⟩) hp he0
  refine ⟨{ v with blocks := t.b.blocks, free := v.free.map (swapNames p q),
                   mem := fun x => if x = q then s.b.mem q else if x = p then (if (s.b.blocks o).int = none then s.b.mem p else v.mem q) else v.mem x }, ?_, ?_, ?_, ?_, ?_⟩
  · refine h.sw.rename hplt hqlt ?_ rfl rfl rfl rfl rfl ?_ ?_ rfl ?_ rfl
    · intro i
      show t.b.blocks i = _
      rw [h.base.blocks]
      by_cases e1 : i = c
      · subst e1; rw [hs.bc, hp]; simp [swapNames]
      · by_cases e2 : i = o
        · subst e2; rw [hs.bo]
          rcases hqo with ⟨h1, _⟩ | ⟨h1, _⟩
          · rw [h1]; simp [swapNames, hpq.symm]
          · rw [h1]; rfl
        · rw [hs.bx i e1 e2]
          cases hi : (s.b.blocks i).int with
          | none => cases hb : s.b.blocks i; rw [hb] at hi; simp only at hi; subst hi; rfl
          | some x =>
            cases hb : s.b.blocks i; rw [hb] at hi; simp only at hi; subst hi
            simp only [Option.map_some, hintO i x e1 e2 (by rw [hb])]
    · intro x
      show x ∈ v.free.map (swapNames p q) ↔ _
      rw [List.mem_map]
      constructor
      · rintro ⟨y, h1, rfl⟩; rw [swapNames_invol]; exact h1
      · intro h1; exact ⟨_, h1, swapNames_invol p q x⟩
    · show (v.free.map (swapNames p q)).Nodup
      have := h.sw.core.freeNd
      exact List.Pairwise.map _ (fun x y hxy hc => hxy (swapNames_inj hc)) this
    · intro i x hi
      rw [h.base.blocks] at hi
      show (if swapNames p q x = q then _ else _) = v.mem x
      by_cases e1 : i = c
      · subst e1; rw [hp] at hi; cases hi
        simp only [swapNames, if_true]
        rw [hmq e0 he0, hvp]
      · by_cases e2 : i = o
        · subst e2
          rcases hqo with ⟨h1, _⟩ | ⟨h1, _⟩
          · rw [h1] at hi; cases hi
            simp [swapNames, hpq, hpq.symm, h1]
          · rw [h1] at hi; cases hi
        · rw [hintO i x e1 e2 hi, if_neg, if_neg]
          · rintro rfl; exact e1 (hpi i hi)
          · rintro rfl; exact e2 (hqi i hi)
  · have hb := hs.b
    refine ⟨rfl, by rw [hb]; exact h.base.n, by rw [hb]; exact h.base.held, by rw [hb]; exact h.base.next, by rw [hb]; exact h.base.remaining, by rw [hb]; exact h.base.max,
      fun x => ?_, by rw [hb]; exact h.base.freeNd, fun d x hx => ?_, fun d e x h1 h2 => ?_, ?_, ?_⟩
    · show x ∈ v.free.map (swapNames p q) ↔ _
      rw [List.mem_map]
      have : (∃ y, y ∈ v.free ∧ swapNames p q y = x) ↔ swapNames p q x ∈ v.free := by
        constructor
        · rintro ⟨y, h1, rfl⟩; rw [swapNames_invol]; exact h1
        · intro h1; exact ⟨_, h1, swapNames_invol p q x⟩
      rw [this, h.base.vfree, show t.b.free = s.b.free by rw [hb]]
      by_cases ep : x = p
      · subst ep
        have e1 : swapNames x q x = q := by simp [swapNames]
        rw [e1]
        constructor
        · rintro (h1 | ⟨d, h1⟩)
          · exact absurd h1 hqf
          · have := hqr d h1; subst this
            exact .inr ⟨d, by rw [hs.rsvO, h1]; rfl⟩
        · rintro (h1 | ⟨d, h1⟩)
          · exact absurd h1 hpf
          · by_cases e2 : d = o
            · subst e2; rw [hs.rsvO] at h1
              rcases hqo with ⟨h2, _⟩ | ⟨h2, h3⟩
              · cases h3 : rsv s d with
                | none => rw [h3] at h1; cases h1
                | some y => have := (h.plan.rsvAcq d y h3).1; rw [h2] at this; cases this
              · exact .inr ⟨d, h3⟩
            · rw [hs.rsvX d e2] at h1; exact absurd h1 (hpr d)
      · by_cases eq : x = q
        · subst eq
          have e1 : swapNames p x x = p := by simp [swapNames, ep]
          rw [e1]
          constructor
          · rintro (h1 | ⟨d, h1⟩)
            · exact absurd h1 hpf
            · exact absurd h1 (hpr d)
          · rintro (h1 | ⟨d, h1⟩)
            · exact absurd h1 hqf
            · by_cases e2 : d = o
              · subst e2; rw [hs.rsvO] at h1
                cases h3 : rsv s d with
                | none => rw [h3] at h1; cases h1
                | some y => rw [h3] at h1; simp only [Option.map_some, Option.some.injEq] at h1; exact absurd h1 hpq
              · rw [hs.rsvX d e2] at h1; exact absurd (hqr d h1) e2
        · have e1 : swapNames p q x = x := by simp [swapNames, ep, eq]
          rw [e1]
          refine or_congr Iff.rfl ⟨?_, ?_⟩
          · rintro ⟨d, h1⟩
            refine ⟨d, ?_⟩
            rw [hs.rsvX d]; exact h1
            rintro rfl
            rcases hqo with ⟨h2, _⟩ | ⟨h2, h3⟩
            · exact absurd (h.plan.rsvAcq d x h1).1 (by rw [h2]; simp)
            · rw [h3] at h1; cases h1; exact eq rfl
          · rintro ⟨d, h1⟩
            by_cases e2 : d = o
            · subst e2; rw [hs.rsvO] at h1
              cases h3 : rsv s d with
              | none => rw [h3] at h1; cases h1
              | some y => rw [h3] at h1; simp only [Option.map_some, Option.some.injEq] at h1; exact absurd h1.symm ep
            · rw [hs.rsvX d e2] at h1; exact ⟨d, h1⟩
    · rw [show t.b.free = s.b.free by rw [hb]]
      by_cases e2 : d = o
      · subst e2; rw [hs.rsvO] at hx
        cases h3 : rsv s d with
        | none => rw [h3] at hx; cases hx
        | some y => rw [h3] at hx; simp only [Option.map_some, Option.some.injEq] at hx; subst hx; exact hpf
      · rw [hs.rsvX d e2] at hx; exact h.base.rsvFree d x hx
    · have key : ∀ d, rsv t d = some x → (d = o ∧ x = p) ∨ (d ≠ o ∧ rsv s d = some x) := by
        intro d hx
        by_cases e2 : d = o
        · subst e2; rw [hs.rsvO] at hx
          cases h3 : rsv s d with
          | none => rw [h3] at hx; cases hx
          | some y => rw [h3] at hx; simp only [Option.map_some, Option.some.injEq] at hx; exact .inl ⟨rfl, hx.symm⟩
        · rw [hs.rsvX d e2] at hx; exact .inr ⟨e2, hx⟩
      rcases key d h1 with ⟨a1, a2⟩ | ⟨a1, a2⟩ <;> rcases key e h2 with ⟨b1, b2⟩ | ⟨b1, b2⟩
      · rw [a1, b1]
      · rw [a2] at b2; exact absurd b2 (hpr e)
      · rw [b2] at a2; exact absurd a2 (hpr d)
      · exact h.base.rsvInj d e x a2 b2
    · rw [hs.freeEv, hs.schedEv]; exact h.base.vev
    · rw [hs.freeEv, hs.schedEv]; exact h.base.disj
  · refine ⟨fun d => by rw [hs.opsOf]; exact h.plan.ops d, fun d m hm => ?_, ?_, fun d x hx => ?_, fun d h1 h2 h3 => ?_, fun d h1 h2 h3 => ?_, ?_, ?_⟩
    · obtain ⟨m', h1, h2⟩ := hs.opsNe d m hm
      rw [← h2]; exact h.plan.opsNe d m' h1
    · rw [show t.b.n = s.b.n by rw [hs.b]]; exact h.plan.ids
    · cases h3 : rsv s d with
      | none => rw [(hrsvN d).2 h3] at hx; cases hx
      | some y => rw [hintN]; exact h.plan.rsvAcq d y h3
    · rw [ne_eq, hrsvN]; exact h.plan.acqRsv d h1 ((hintN d).1 h2) h3
    · rw [hini] at h2; rw [hod']; exact h.plan.pre d h1 h2 h3
    · intro i; rw [hs.freeEv, hdir]; exact h.plan.evF i
    · intro i; rw [hs.schedEv, hdir]; exact h.plan.evS i
  · refine ⟨fun d r => ?_, fun d e r => by rw [hs.rrq, hs.rrq]; exact h.io.rrqInj d e r, fun d r g w' h1 h2 h3 => ?_, fun x hx => ?_, by rw [hs.reads]; exact h.io.rdNd,
      fun d g hg => ?_, fun d g w' h1 h2 => ?_, fun g w' hw' => ?_, fun d hdd => ?_⟩
    · rw [hs.rrq, hod', href, hdir, hext, hwn, hs.reqs]; exact h.io.rrqOk d r
    · rw [hs.rrq] at h1
      obtain ⟨w, h5, h6, h7⟩ := hwf g w' h3
      rw [h6]; show w.phase = _
      rcases hgf d g h2 with ⟨e1, _⟩ | ⟨e1, _⟩ | ⟨e1, e2, e3⟩
      · subst e1; rw [hrc] at h1; cases h1
      · subst e1; rw [hro] at h1; cases h1
      · exact h.io.rrqW d r g w h1 e3 h5
    · rw [hs.reads] at hx
      obtain ⟨d, x1, x2, x3⟩ := h.io.rdOk x hx
      refine ⟨d, by rw [hs.rrq]; exact x1, ?_, by rw [hext]; exact x3⟩
      rw [hs.bx d]
      · exact x2
      · rintro rfl; rw [hrc] at x1; cases x1
      · rintro rfl; rw [hro] at x1; cases x1
    · rw [hdir, href, hod', href, ne_eq (rsv t d), hrsvN]
      rcases hgf d g hg with ⟨rfl, rfl, _⟩ | ⟨rfl, e1, _⟩ | ⟨e1, e2, e3⟩
      · exact ⟨d5.before, d3, d2, .inr ⟨d1, d2, d5⟩⟩
      · obtain ⟨x1, x2, x3, _⟩ := h.io.gvrOk c g e1
        exact ⟨hbco.trans x1 hne, x2, x3, (h.io.gvrOk d c hgo).2.2.2⟩
      · exact h.io.gvrOk d g e3
    · obtain ⟨w, h5, h6, h7⟩ := hwf g w' h2
      rcases hgf d g h1 with ⟨rfl, rfl, _⟩ | ⟨rfl, e1, _⟩ | ⟨e1, e2, e3⟩
      · rcases h7 with ⟨_, h7⟩ | ⟨h7, _⟩ | ⟨h7, _⟩
        · exact h7
        · exact absurd rfl h7
        · exact absurd rfl h7
      · rcases h7 with ⟨rfl, _⟩ | ⟨_, _, _, h7⟩ | ⟨_, h7, _⟩
        · exact absurd rfl (hgne _ w e1 h5).1
        · exact h7
        · exact absurd e1 h7
      · have ht := h.io.gvrW d g w e3 h5
        rcases h7 with ⟨rfl, _⟩ | ⟨_, _, h7, _⟩ | ⟨_, h7, rfl⟩
        · have := hwct w h5; rw [ht] at this; exact absurd (Option.some.inj this) e2
        · have := h.io.gvrW c g w h7 h5; rw [ht] at this; exact absurd (Option.some.inj this) e1
        · exact ht
    · obtain ⟨w, h5, h6, h7⟩ := hwf g w' hw'
      obtain ⟨x1, x2, x34⟩ := h.io.wOk g w h5
      have hwe : w'.ext = w.ext ∧ w'.buf = w.buf ∧ w'.shallRead = w.shallRead ∧ w'.target = w.target ∧ w'.phase = w.phase := by rw [h6]; exact ⟨rfl, rfl, rfl, rfl, rfl⟩
      refine ⟨by rw [hext, hwe.1]; exact x1, by rw [hdir]; exact x2, ?_⟩
      rcases x34.symm with st | ⟨x3, x4⟩
      · right
        rcases h7 with ⟨rfl, ht⟩ | ⟨e1, e2, e3, ht⟩ | ⟨e1, e2, rfl⟩
        · have := hwct w h5; rw [st.2.1] at this; cases this
        · have := h.io.gvrW c g w e3 h5; rw [st.2.1] at this; cases this
        · exact st.of rfl rfl (fun hc => hc.1) rfl ⟨[], by simp⟩ fun hi => .inl ((hintN g).1 hi)
      refine .inl ⟨by rw [href]; exact x3, ?_⟩
      rcases h7 with ⟨rfl, ht⟩ | ⟨e1, e2, e3, ht⟩ | ⟨e1, e2, rfl⟩
      · -- the request of c
        left
        have hb : w.buf = q := by
          rcases x4 with ⟨_, b2, _⟩ | ⟨m, b1, b2, b3, b4, _⟩
          · exact absurd hd b2
          · rw [hwct w h5] at b1; cases b1; rw [hq] at b4; exact (Option.some.inj b4).symm
        refine ⟨by rw [hs.bc, hwe.2.1, hb], fun hc => hc.2 rfl, by rw [hwe.2.2.1]; exact hcw w h5, .inr ⟨ht, ?_⟩⟩
        rw [hs.gc, h5]; rfl
      · -- the request of the giver of c
        right
        have htc := h.io.gvrW c g w e3 h5
        rcases x4 with ⟨_, _, _, b4⟩ | ⟨m, b1, b2, b3, b4, b5, _⟩
        · rcases b4 with b4 | b4
          · rw [b4.1] at htc; cases htc
          · rw [b4.1] at htc; exact absurd (Option.some.inj htc) e1
        · rw [htc] at b1; cases b1
          refine ⟨o, ht, fun hc => e2 hc.symm, ?_, ?_, ?_, fun hsr => ?_, fun hi => ?_⟩
          · rw [hs.go, e3, Option.bind_some, h5]; rfl
          · unfold bufOf at b4 ⊢
            rw [hp] at b4; simp only [Option.some_or, Option.some.injEq] at b4
            rw [hs.bo, hs.rsvO, hwe.2.1, ← b4]
            rcases hqo with ⟨h1, _⟩ | ⟨h1, h2⟩
            · rw [h1]; rfl
            · rw [h1, h2]; rfl
          · rw [hintN]; exact b5.imp id fun hc => ⟨hc, e1⟩
          · rw [hwe.2.2.1, hgw g w e3 h5] at hsr; cases hsr
          · exact .inr ⟨hod ((hod' o).1 hi), hne⟩
      · -- other requests
        rcases x4 with ⟨b1, b2, b3, b4⟩ | ⟨m, b1, b2, b3, b4, b5, b6, b7⟩
        · have hgo' : g ≠ o := by
            rintro rfl; exact b2 (hod (by rw [b1]; simp))
          refine .inl ⟨by rw [hs.bx g e1 hgo']; exact b1, fun hc => b2 hc.1, b3, ?_⟩
          rw [hs.next, hs.gx g e1 hgo']; exact b4
        · have hmc : m ≠ c := by rintro rfl; exact e2 b3
          have hmo : m ≠ o := by rintro rfl; rw [hgo] at b3; exact e1 (Option.some.inj b3).symm
          refine .inr ⟨m, b1, b2, by rw [hs.gx m hmc hmo]; exact b3, ?_, ?_, fun hsr => ?_, fun hi => ?_⟩
          · unfold bufOf; rw [hs.bx m hmc hmo, hs.rsvX m hmo]; exact b4
          · rw [hintN]; exact b5.imp id fun hc => ⟨hc, e1⟩
          · rw [hod', hwn, hext, hdir, hs.rrq]
            obtain ⟨c1, c2, c3, c4, c5, c6⟩ := b6 hsr
            exact ⟨c1, c2, c3, c4, c5, fun hph => (c6 hph).imp id fun hc => ⟨hc, hmc⟩⟩
          · exact (b7 ((hod' m).1 hi)).imp id fun hc => ⟨hc, hmc⟩
    · rw [hod', href, hdir, hext]; exact h.io.dueOk d hdd.1
  · have hmem : t.b.mem = s.b.mem := by rw [hs.b]
    have hdisk : t.b.disk = s.b.disk := by rw [hs.b]
    refine ⟨fun g w' hw' hi => ?_, fun e he => ?_, fun i x e hi h1 h2 => ?_, fun x hx => ?_⟩
    · obtain ⟨w, h5, h6, h7⟩ := hwf g w' hw'
      rw [hmem]
      have e1 : w'.buf = w.buf := by rw [h6]
      have e2 : w'.ext = w.ext := by rw [h6]
      rw [e1, e2]
      refine h.view.intact g w h5 fun m hm => ?_
      rcases h7 with ⟨rfl, ht⟩ | ⟨f1, f2, f3, ht⟩ | ⟨f1, f2, rfl⟩
      · rw [hwct w h5] at hm; cases hm; exact hro
      · rw [h.io.gvrW c g w f3 h5] at hm; cases hm; exact hrc
      · rw [← hs.rrq]; exact hi m hm
    · show v.disk e = _
      rw [hdisk]
      refine h.view.vdN e fun g w hw hph => ?_
      obtain ⟨tk, h5⟩ := hwb g w hw
      exact he g { w with taker := tk } h5 hph
    · show (if x = q then _ else _) = v.disk e
      rw [hext] at h2
      by_cases e1 : i = c
      · subst e1; exact absurd hi hrdc
      · by_cases e2 : i = o
        · subst e2
          rw [hs.bo] at h1
          rcases hqo with ⟨h3, h4⟩ | ⟨h3, _⟩
          · rw [h3] at h1; simp only [Option.map_some, Option.some.injEq] at h1
            subst h1
            rw [if_neg hpq, if_pos rfl, if_neg (by rw [h3]; simp)]
            exact h.view.vmR i q e (.inr ⟨hro, .inl h4⟩) h3 h2
          · rw [h3] at h1; cases h1
        · rw [hs.bx i e1 e2] at h1
          rw [if_neg, if_neg]
          · exact h.view.vmR i x e ((hrd i e1 e2).1 hi) h1 h2
          · rintro rfl; exact e1 (hpi i h1)
          · rintro rfl; exact e2 (hqi i h1)
    · show (if x = q then _ else _) = t.b.mem x
      rw [hmem]
      by_cases e1 : x = q
      · rw [if_pos e1, e1]
      · rw [if_neg e1]
        by_cases e2 : x = p
        · subst e2; rw [if_pos rfl]
          rcases hqo with ⟨h3, h4⟩ | ⟨h3, _⟩
          · exact absurd (.inr ⟨by rw [hs.rrq]; exact hro, .inl ⟨h4, hne⟩⟩) (hx o (by rw [hs.bo, h3]; rfl))
          · rw [if_pos h3]
        · rw [if_neg e2]
          refine h.view.vmN x fun i hi hc => ?_
          have i1 : i ≠ c := by rintro rfl; rw [hp] at hi; exact e2 (Option.some.inj hi).symm
          have i2 : i ≠ o := by
            rintro rfl
            rcases hqo with ⟨h3, h4⟩ | ⟨h3, _⟩
            · rw [h3] at hi; exact e1 (Option.some.inj hi).symm
            · rw [h3] at hi; cases hi
          exact hx i (by rw [hs.bx i i1 i2]; exact hi) ((hrd i i1 i2).2 hc)

end Foxxll.Ahead
