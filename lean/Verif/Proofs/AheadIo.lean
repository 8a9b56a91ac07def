import Verif.Proofs.Ahead

set_option linter.unusedSimpArgs false
set_option linter.unusedVariables false
set_option linter.unusedSectionVars false

/-
offline_lru_prefetching: steps of the I/O threads and waiting for them.
-/
namespace Foxxll.Ahead
open Foxxll.Swap (SB Env POp Elem Op Res Abs Allowed Expected)

variable {D : Type} [Slack D]

theorem setBlk_same (s : St D) (c : Nat) (x : SB) (h : x = s.b.blocks c) : s.setBlk c x = s := by
  subst h
  have : (s.b.set c (s.b.blocks c)) = s.b := by
    have : (fun j => if j = c then s.b.blocks c else s.b.blocks j) = s.b.blocks := by
      funext j; by_cases e : j = c <;> simp [e]
    simp only [Swap.St.set, this]
  simp only [St.setBlk, this]

theorem Inv.sched_some {dflt : D} {a : Abs D} {k : Ctx} {v : Swap.St D} {s : St D} (h : Inv dflt a k v s) {c : Nat} (hc : HasAcq k.S c) :
    ∃ m, s.sched c = some m := by
  obtain ⟨o, ho, _⟩ := hc
  have := h.plan.ops c
  cases hs : s.sched c with
  | some m => exact ⟨m, rfl⟩
  | none =>
    simp only [opsOf, hs, Option.map_none, Option.getD_none] at this
    have h2 := (List.append_eq_nil_iff.1 this.symm).2
    rw [h2] at ho; cases ho

theorem rrq_setMeta (s : St D) (c : Nat) (m : Meta) (d : Nat) : rrq (s.setMeta c (some m)) d = if d = c then m.readReq else rrq s d := by
  unfold rrq; by_cases e : d = c
  · subst e; simp
  · simp [setMeta_other _ _ e, e]
theorem gvr_setMeta (s : St D) (c : Nat) (m : Meta) (d : Nat) : gvr (s.setMeta c (some m)) d = if d = c then m.giver else gvr s d := by
  unfold gvr; by_cases e : d = c
  · subst e; simp
  · simp [setMeta_other _ _ e, e]
theorem rsv_setMeta (s : St D) (c : Nat) (m : Meta) (d : Nat) : rsv (s.setMeta c (some m)) d = if d = c then m.reserved else rsv s d := by
  unfold rsv; by_cases e : d = c
  · subst e; simp
  · simp [setMeta_other _ _ e, e]
theorem opsOf_setMeta (s : St D) (c : Nat) (m : Meta) (d : Nat) : opsOf (s.setMeta c (some m)) d = if d = c then m.ops else opsOf s d := by
  unfold opsOf; by_cases e : d = c
  · subst e; simp
  · simp [setMeta_other _ _ e, e]
theorem rsv_of {s : St D} {c : Nat} {m : Meta} (h : s.sched c = some m) : rsv s c = m.reserved := by simp [rsv, h]
theorem gvr_of {s : St D} {c : Nat} {m : Meta} (h : s.sched c = some m) : gvr s c = m.giver := by simp [gvr, h]
theorem rrq_of {s : St D} {c : Nat} {m : Meta} (h : s.sched c = some m) : rrq s c = m.readReq := by simp [rrq, h]
theorem opsOf_of {s : St D} {c : Nat} {m : Meta} (h : s.sched c = some m) : opsOf s c = m.ops := by simp [opsOf, h]
theorem sched_of_gvr {s : St D} {c g : Nat} (h : gvr s c = some g) : ∃ m, s.sched c = some m ∧ m.giver = some g := by
  unfold gvr at h; cases hs : s.sched c with
  | none => rw [hs] at h; cases h
  | some m => rw [hs] at h; exact ⟨m, rfl, h⟩
theorem sched_of_rsv {s : St D} {c g : Nat} (h : rsv s c = some g) : ∃ m, s.sched c = some m ∧ m.reserved = some g := by
  unfold rsv at h; cases hs : s.sched c with
  | none => rw [hs] at h; cases h
  | some m => rw [hs] at h; exact ⟨m, rfl, h⟩
theorem sched_of_rrq {s : St D} {c g : Nat} (h : rrq s c = some g) : ∃ m, s.sched c = some m ∧ m.readReq = some g := by
  unfold rrq at h; cases hs : s.sched c with
  | none => rw [hs] at h; cases h
  | some m => rw [hs] at h; exact ⟨m, rfl, h⟩

/-- The read of a due block is started. -/
theorem startRead_ok {dflt : D} {a : Abs D} {k : Ctx} {v : Swap.St D} {s : St D} (h : Inv dflt a k v s) {m : Nat} (hm : k.due m)
    (hr : rrq s m = none) (hw : s.wsched m = none) (hg : ∀ g w, gvr s m = some g → s.wsched g = some w → w.phase = .handled) :
    ∃ s', startRead s m m = some s' ∧ Inv dflt a k v s' ∧ Fr s s' ∧ rrq s' m ≠ none ∧ s'.wsched = s.wsched := by
  obtain ⟨d1, d2, d3, d4, d5⟩ := h.io.dueOk m hm
  obtain ⟨p, hp⟩ := Option.ne_none_iff_exists'.1 d1
  obtain ⟨e, he⟩ := Option.ne_none_iff_exists'.1 d4
  obtain ⟨mm, hmm⟩ := h.sched_some d5.hasAcq
  have hs : startRead s m m = some { s.setMeta m (some { mm with readReq := some s.reqs }) with reads := s.reads ++ [{ id := s.reqs, buf := p, ext := e }], reqs := s.reqs + 1 } := by
    unfold startRead
    rw [setBlk_same s m _ (by simp only [St.blk]; rw [← d3])]
    simp only [St.blk, hp, he, hmm]
  have hfr : Fr s { s.setMeta m (some { mm with readReq := some s.reqs }) with reads := s.reads ++ [{ id := s.reqs, buf := p, ext := e }], reqs := s.reqs + 1 } := by
    refine ⟨⟨rfl, rfl, rfl, rfl, rfl, fun c => ?_⟩, fun c r hc => ?_, fun g => rfl⟩
    · show ((s.setMeta m _).sched c).map _ = _
      by_cases e' : c = m
      · subst e'; rw [setMeta_same, hmm]; rfl
      · rw [setMeta_other _ _ e']
    · show rrq (s.setMeta m _) c = some r
      rw [rrq_setMeta]; split
      · rename_i e'; subst e'; rw [hr] at hc; cases hc
      · exact hc
  refine ⟨_, hs, ?_, hfr, ?_, rfl⟩
  · have hrsv : ∀ c, rsv (s.setMeta m (some { mm with readReq := some s.reqs })) c = rsv s c := by
      intro c; rw [rsv_setMeta]; split
      · rename_i e; subst e; exact (rsv_of hmm).symm
      · rfl
    have hgvr : ∀ c, gvr (s.setMeta m (some { mm with readReq := some s.reqs })) c = gvr s c := by
      intro c; rw [gvr_setMeta]; split
      · rename_i e; subst e; exact (gvr_of hmm).symm
      · rfl
    have hops : ∀ c, opsOf (s.setMeta m (some { mm with readReq := some s.reqs })) c = opsOf s c := by
      intro c; rw [opsOf_setMeta]; split
      · rename_i e; subst e; exact (opsOf_of hmm).symm
      · rfl
    have hrrq : ∀ c, rrq (s.setMeta m (some { mm with readReq := some s.reqs })) c = if c = m then some s.reqs else rrq s c := by
      intro c; rw [rrq_setMeta]
    generalize ht : s.setMeta m (some { mm with readReq := some s.reqs }) = t at *
    have tb : t.b = s.b := by rw [← ht]; rfl
    have tw : t.wsched = s.wsched := by rw [← ht]; rfl
    have tn : t.next = s.next := by rw [← ht]; rfl
    have tf : t.freeEv = s.freeEv := by rw [← ht]; rfl
    have ts : t.schedEv = s.schedEv := by rw [← ht]; rfl
    have hnew : ∀ c r, rrq t c = some r → r = s.reqs ∧ c = m ∨ rrq s c = some r ∧ c ≠ m := by
      intro c r hc; rw [hrrq] at hc; split at hc
      · rename_i e; exact .inl ⟨(Option.some.inj hc).symm, e⟩
      · rename_i e; exact .inr ⟨hc, e⟩
    refine ⟨h.sw, h.base.fr hfr.toFr0, h.plan.fr hfr.toFr0, ?_, ?_⟩
    · refine ⟨?_, ?_, ?_, ?_, ?_, ?_, ?_, ?_, ?_⟩
      · intro c r hc
        show (t.b.blocks c).int ≠ none ∧ (t.b.blocks c).refs = 0 ∧ (t.b.blocks c).dirty = false ∧ (t.b.blocks c).ext ≠ none ∧ _ ∧ t.wsched c = none ∧ r < s.reqs + 1
        rw [tb, tw]
        rcases hnew c r hc with ⟨rfl, rfl⟩ | ⟨hc, -⟩
        · exact ⟨d1, d2, d3, d4, d5, hw, by omega⟩
        · obtain ⟨x1, x2, x3, x4, x5, x6, x7⟩ := h.io.rrqOk c r hc
          exact ⟨x1, x2, x3, x4, x5, x6, by omega⟩
      · intro c d r hc hd
        rcases hnew c r hc with ⟨e1, e2⟩ | ⟨hc, e2⟩ <;> rcases hnew d r hd with ⟨e3, e4⟩ | ⟨hd, e4⟩
        · rw [e2, e4]
        · have := (h.io.rrqOk d r hd).2.2.2.2.2.2; omega
        · have := (h.io.rrqOk c r hc).2.2.2.2.2.2; omega
        · exact h.io.rrqInj c d r hc hd
      · intro c r g w hc hgc hwg
        have hgc : gvr t c = some g := hgc; have hwg : t.wsched g = some w := hwg
        rw [hgvr] at hgc; rw [tw] at hwg
        rcases hnew c r hc with ⟨rfl, rfl⟩ | ⟨hc, -⟩
        · exact hg g w hgc hwg
        · exact h.io.rrqW c r g w hc hgc hwg
      · intro x hx
        show ∃ c, rrq t c = some x.id ∧ (t.b.blocks c).int = some x.buf ∧ (t.b.blocks c).ext = some x.ext
        rw [tb]
        have hx : x ∈ s.reads ++ [{ id := s.reqs, buf := p, ext := e }] := hx
        rcases List.mem_append.1 hx with hx | hx
        · obtain ⟨c, x1, x2, x3⟩ := h.io.rdOk x hx
          refine ⟨c, ?_, x2, x3⟩
          rw [hrrq]; split
          · rename_i e'; subst e'; rw [hr] at x1; cases x1
          · exact x1
        · simp only [List.mem_singleton] at hx
          subst hx
          exact ⟨m, by rw [hrrq]; simp, hp, he⟩
      · show ((s.reads ++ [({ id := s.reqs, buf := p, ext := e } : Rd)]).map (·.id)).Nodup
        rw [List.map_append]
        refine List.nodup_append.2 ⟨h.io.rdNd, by simp, fun x hx y hy => ?_⟩
        simp only [List.map_cons, List.map_nil, List.mem_singleton] at hy
        obtain ⟨z, hz, rfl⟩ := List.mem_map.1 hx
        obtain ⟨c, x1, _⟩ := h.io.rdOk z hz
        have := (h.io.rrqOk c z.id x1).2.2.2.2.2.2
        omega
      · intro c g hc; have hc : gvr t c = some g := hc; rw [hgvr] at hc
        show _ ∧ (t.b.blocks g).dirty = false ∧ (t.b.blocks g).refs = 0 ∧ (rsv t c ≠ none ∨ ((t.b.blocks c).int ≠ none ∧ (t.b.blocks c).refs = 0 ∧ _))
        rw [tb, hrsv]; exact h.io.gvrOk c g hc
      · intro c g w hc hwg; have hc : gvr t c = some g := hc; have hwg : t.wsched g = some w := hwg
        rw [hgvr] at hc; rw [tw] at hwg; exact h.io.gvrW c g w hc hwg
      · intro g w hwg; have hwg : t.wsched g = some w := hwg
        rw [tw] at hwg
        obtain ⟨x1, x2, ⟨x3, x4⟩ | x4⟩ := h.io.wOk g w hwg
        case inr => exact ⟨by show (t.b.blocks g).ext = _; rw [tb]; exact x1, by show (t.b.blocks g).dirty = _; rw [tb]; exact x2, .inr (x4.same rfl rfl id ⟨rfl, rfl⟩ (by show (t.b.blocks g).int = _; rw [tb]))⟩
        show (t.b.blocks g).ext = some w.ext ∧ (t.b.blocks g).dirty = false ∧ ((t.b.blocks g).refs = 0 ∧ _ ∨ _)
        rw [tb]
        refine ⟨x1, x2, .inl ⟨x3, ?_⟩⟩
        rcases x4 with ⟨b1, b2, b3, b4⟩ | ⟨m', b1, b2, b3, b4, b5, b6, b7⟩
        · refine .inl ⟨by show (t.b.blocks g).int = some w.buf; rw [tb]; exact b1, b2, b3, ?_⟩
          show (_ ∧ t.next = [] ∧ _) ∨ (_ ∧ gvr t g = some g)
          rw [tn, hgvr]; exact b4
        · refine .inr ⟨m', b1, b2, ?_, ?_, ?_, fun hs => ?_, ?_⟩
          · show gvr t m' = some g; rw [hgvr]; exact b3
          · show (t.b.blocks m').int.or (rsv t m') = some w.buf; rw [tb, hrsv]; exact b4
          · show (t.b.blocks g).int = none ∨ _; rw [tb]; exact b5
          · show _ ∧ (t.b.blocks m').int ≠ none ∧ t.wsched m' = none ∧ (t.b.blocks m').ext ≠ none ∧ (t.b.blocks m').dirty = false ∧ (_ → rrq t m' ≠ none ∨ _)
            rw [tb, tw]
            obtain ⟨c1, c2, c3, c4, c5, c6⟩ := b6 hs
            refine ⟨c1, c2, c3, c4, c5, fun hp => ?_⟩
            rcases c6 hp with c6 | c6
            · left; rw [hrrq]; split
              · simp
              · exact c6
            · exact .inr c6
          · show (t.b.blocks m').int ≠ none → _; rw [tb]; exact b7
      · show ∀ c, k.due c → (t.b.blocks c).int ≠ none ∧ (t.b.blocks c).refs = 0 ∧ (t.b.blocks c).dirty = false ∧ (t.b.blocks c).ext ≠ none ∧ First k.S c
        rw [tb]; exact h.io.dueOk
    · have hrd : ∀ i, Rdg k s i ↔ Rdg k { t with reads := s.reads ++ [{ id := s.reqs, buf := p, ext := e }], reqs := s.reqs + 1 } i := by
        intro i
        unfold Rdg
        by_cases ei : i = m
        · subst ei
          constructor
          · intro _; exact .inl ⟨s.reqs, by show rrq t i = _; rw [hrrq]; simp, by simp⟩
          · intro _; exact .inr ⟨hr, .inl hm⟩
        · have e1 : rrq t i = rrq s i := by rw [hrrq]; simp [ei]
          constructor
          · rintro (⟨r, h1, h2⟩ | ⟨h1, h2⟩)
            · exact .inl ⟨r, e1.trans h1, by simp only [List.map_append, List.mem_append]; exact .inl h2⟩
            · refine .inr ⟨e1.trans h1, h2.imp id ?_⟩
              rintro ⟨g, w, y1, y2, y3⟩
              exact ⟨g, w, (hgvr i).trans y1, by show t.wsched g = some w; rw [tw]; exact y2, y3⟩
          · rintro (⟨r, h1, h2⟩ | ⟨h1, h2⟩)
            · have h1 : rrq t i = some r := h1
              rw [e1] at h1
              refine .inl ⟨r, h1, ?_⟩
              have h2 : r ∈ (s.reads ++ [({ id := s.reqs, buf := p, ext := e } : Rd)]).map (·.id) := h2
              simp only [List.map_append, List.mem_append, List.map_cons, List.map_nil, List.mem_singleton] at h2
              rcases h2 with h2 | h2
              · exact h2
              · have := (h.io.rrqOk i r h1).2.2.2.2.2.2; omega
            · have h1 : rrq t i = none := h1
              rw [e1] at h1
              refine .inr ⟨h1, h2.imp id ?_⟩
              rintro ⟨g, w, y1, y2, y3⟩
              have y1 : gvr t i = some g := y1
              have y2 : t.wsched g = some w := y2
              rw [hgvr] at y1; rw [tw] at y2
              exact ⟨g, w, y1, y2, y3⟩
      refine ⟨?_, ?_, ?_, ?_⟩
      · intro g w hwg hi
        have hwg : t.wsched g = some w := hwg
        rw [tw] at hwg
        show t.b.mem w.buf = _
        rw [tb]
        refine h.view.intact g w hwg fun m' hm' => ?_
        have hi : rrq t m' = none := hi m' hm'
        rw [hrrq] at hi; split at hi
        · cases hi
        · exact hi
      · intro e' he'
        show v.disk e' = t.b.disk e'
        rw [tb]
        exact h.view.vdN e' fun g w hwg hp => he' g w (by show t.wsched g = some w; rw [tw]; exact hwg) hp
      · intro i q e' hi h1 h2
        have h1 : (t.b.blocks i).int = some q := h1; have h2 : (t.b.blocks i).ext = some e' := h2
        rw [tb] at h1 h2
        exact h.view.vmR i q e' ((hrd i).2 hi) h1 h2
      · intro q hq
        show v.mem q = t.b.mem q
        rw [tb]
        exact h.view.vmN q fun i hi hc => hq i (by show (t.b.blocks i).int = some q; rw [tb]; exact hi) ((hrd i).1 hc)
  · show rrq (s.setMeta m _) m ≠ none
    rw [rrq_setMeta]; simp

/-- Order of the transfers and prediction sequence do not matter. -/
theorem Inv.misc {dflt : D} {a : Abs D} {k : Ctx} {v : Swap.St D} {s : St D} (h : Inv dflt a k v s) (orc : List (List Disk)) (pred : List Elem) :
    Inv dflt a k v { s with orc := orc, pred := pred } :=
  ⟨h.sw, ⟨h.base.blocks, h.base.n, h.base.held, h.base.next, h.base.remaining, h.base.max, h.base.vfree, h.base.freeNd, h.base.rsvFree, h.base.rsvInj, h.base.vev, h.base.disj⟩,
    ⟨h.plan.ops, h.plan.opsNe, h.plan.ids, h.plan.rsvAcq, h.plan.acqRsv, h.plan.pre, h.plan.evF, h.plan.evS⟩,
    ⟨h.io.rrqOk, h.io.rrqInj, h.io.rrqW, h.io.rdOk, h.io.rdNd, h.io.gvrOk, h.io.gvrW, h.io.wOk, h.io.dueOk⟩,
    ⟨h.view.intact, h.view.vdN, h.view.vmR, h.view.vmN⟩⟩

/-- A read transfer. -/
theorem doRead_ok {dflt : D} {a : Abs D} {k : Ctx} {v : Swap.St D} {s : St D} (h : Inv dflt a k v s) (r : Nat) :
    Inv dflt a k v (doRead s r) ∧ Fr s (doRead s r) ∧ r ∉ (doRead s r).reads.map (·.id) ∧ (doRead s r).sched = s.sched ∧ (doRead s r).wsched = s.wsched := by
  unfold doRead
  cases hf : s.reads.find? (fun x => x.id == r) with
  | none =>
    refine ⟨h, Fr.refl s, fun hm => ?_, rfl, rfl⟩
    obtain ⟨x, h1, h2⟩ := List.mem_map.1 hm
    have := List.find?_eq_none.1 hf x h1
    simp [h2] at this
  | some x =>
    have hx := List.mem_of_find?_eq_some hf
    have hid : x.id = r := by have := List.find?_some hf; simpa using this
    obtain ⟨c, c1, c2, c3⟩ := h.io.rdOk x hx
    obtain ⟨q1, q2, q3, q4, q5, q6, q7⟩ := h.io.rrqOk c x.id c1
    have hfr : Fr s { s with reads := s.reads.filter (fun y => y.id != r), b := { s.b with mem := fun p => if p = x.buf then s.b.disk x.ext else s.b.mem p } } :=
      ⟨⟨rfl, rfl, rfl, rfl, rfl, fun _ => rfl⟩, fun _ _ h => h, fun _ => rfl⟩
    have hvd : v.disk x.ext = s.b.disk x.ext := by
      refine h.view.vdN x.ext fun g w hw hp he => ?_
      have := h.ext_inj (by rw [← he]; exact (h.io.wOk g w hw).1) c3
      subst this; rw [q6] at hw; cases hw
    have hvm : v.mem x.buf = v.disk x.ext := h.view.vmR c x.buf x.ext (.inl ⟨x.id, c1, List.mem_map.2 ⟨x, hx, rfl⟩⟩) c2 c3
    have hrd : ∀ i, i ≠ c → (Rdg k s i ↔ Rdg k { s with reads := s.reads.filter (fun y => y.id != r), b := { s.b with mem := fun p => if p = x.buf then s.b.disk x.ext else s.b.mem p } } i) := by
      intro i hi
      unfold Rdg
      constructor
      · rintro (⟨r', h1, h2⟩ | h1)
        · refine .inl ⟨r', h1, ?_⟩
          obtain ⟨y, hy, rfl⟩ := List.mem_map.1 h2
          refine List.mem_map.2 ⟨y, List.mem_filter.2 ⟨hy, ?_⟩, rfl⟩
          simp only [bne_iff_ne, ne_eq]
          intro hc
          rw [hc, ← hid] at h1
          exact hi (h.io.rrqInj i c x.id h1 c1)
        · exact .inr h1
      · rintro (⟨r', h1, h2⟩ | h1)
        · refine .inl ⟨r', h1, ?_⟩
          obtain ⟨y, hy, rfl⟩ := List.mem_map.1 h2
          exact List.mem_map.2 ⟨y, (List.mem_filter.1 hy).1, rfl⟩
        · exact .inr h1
    have hrc : ¬ Rdg k { s with reads := s.reads.filter (fun y => y.id != r), b := { s.b with mem := fun p => if p = x.buf then s.b.disk x.ext else s.b.mem p } } c := by
      rintro (⟨r', h1, h2⟩ | ⟨h1, _⟩)
      · have h1 : rrq s c = some r' := h1
        rw [c1] at h1; cases h1
        obtain ⟨y, hy, hyx⟩ := List.mem_map.1 h2
        have := (List.mem_filter.1 hy).2
        simp only [bne_iff_ne, ne_eq] at this
        exact this (hyx.trans hid)
      · have h1 : rrq s c = none := h1
        rw [c1] at h1; cases h1
    refine ⟨⟨h.sw, h.base.fr hfr.toFr0, h.plan.fr hfr.toFr0, ?_, ?_⟩, hfr, ?_, rfl, rfl⟩
    · refine ⟨h.io.rrqOk, h.io.rrqInj, h.io.rrqW, fun y hy => h.io.rdOk y (List.mem_filter.1 hy).1, ?_, h.io.gvrOk, h.io.gvrW, h.io.wOk, h.io.dueOk⟩
      exact h.io.rdNd.sublist (List.filter_sublist.map _)
    · refine ⟨?_, h.view.vdN, ?_, ?_⟩
      · intro g w hw hi
        show (if w.buf = x.buf then s.b.disk x.ext else s.b.mem w.buf) = v.disk w.ext
        rcases (h.io.wOk g w hw).2.2 with ⟨_, hh⟩ | st
        case inr => exact Slack.one st.1 _ _
        rw [if_neg]
        · exact h.view.intact g w hw hi
        · intro hb
          rcases hh with ⟨b1, b2, b3, b4⟩ | ⟨m, b1, b2, b3, b4, b5, b6, b7⟩
          · rw [hb] at b1
            have := h.int_inj b1 c2
            subst this; rw [q6] at hw; cases hw
          · rw [hb] at b4
            unfold bufOf at b4
            cases hi2 : (s.b.blocks m).int with
            | none => rw [hi2] at b4; exact h.int_rsv c2 b4
            | some p =>
              rw [hi2] at b4
              simp only [Option.some_or, Option.some.injEq] at b4
              subst b4
              have := h.int_inj hi2 c2
              subst this
              have hi : rrq s m = none := hi m b1
              rw [c1] at hi; cases hi
      · intro i p e hi h1 h2
        by_cases ei : i = c
        · subst ei; exact absurd hi hrc
        · exact h.view.vmR i p e ((hrd i ei).2 hi) h1 h2
      · intro p hp
        show v.mem p = if p = x.buf then s.b.disk x.ext else s.b.mem p
        by_cases ep : p = x.buf
        · subst ep; rw [if_pos rfl, hvm, hvd]
        · rw [if_neg ep]
          refine h.view.vmN p fun i hi hc => ?_
          by_cases ei : i = c
          · subst ei; rw [c2] at hi; cases hi; exact ep rfl
          · exact hp i hi ((hrd i ei).1 hc)
    · intro hm
      obtain ⟨y, hy, hyx⟩ := List.mem_map.1 hm
      have := (List.mem_filter.1 hy).2
      simp only [bne_iff_ne, ne_eq] at this
      exact this hyx

theorem Fr.setPhase {s : St D} {g : Nat} {w : Wrr} (hw : s.wsched g = some w) (ph : Phase) (disk : Nat → D) :
    Fr s { s.setWrr g (some { w with phase := ph }) with b := { s.b with disk := disk } } := by
  refine ⟨⟨rfl, rfl, rfl, rfl, rfl, fun _ => rfl⟩, fun _ _ h => h, fun j => ?_⟩
  show ((s.setWrr g _).wsched j).map _ = _
  by_cases e : j = g
  · subst e; rw [setWrr_same, hw]; rfl
  · rw [setWrr_other _ _ e]

theorem setWrr_disk (s : St D) (g : Nat) (w : Option Wrr) : { s.setWrr g w with b := { s.b with disk := s.b.disk } } = s.setWrr g w := rfl

theorem doHandle_no (s : St D) (g : Nat) {w : Wrr} (hs : w.shallRead = false) : doHandle s g w = some (s.setWrr g (some { w with phase := .handled })) := by
  unfold doHandle; simp [hs]

theorem doHandle_yes (s : St D) (g : Nat) {w : Wrr} {m : Nat} (hs : w.shallRead = true) (ht : w.taker = some m) (hx : w.target = m) :
    doHandle s g w = startRead (s.setWrr g (some { w with phase := .handled })) m m := by
  unfold doHandle; simp [hs, ht, hx]

/-- The completion handler. -/
theorem doHandle_ok {dflt : D} {a : Abs D} {k : Ctx} {v : Swap.St D} {s : St D} (h : Inv dflt a k v s) {g : Nat} {w : Wrr} (hw : s.wsched g = some w)
    (hp : w.phase = .flagged) : ∃ s', doHandle s g w = some s' ∧ Inv dflt a k v s' ∧ Fr s s' ∧ s'.wsched g = some { w with phase := .handled } := by
  have hnh : w.phase ≠ .handled := by rw [hp]; simp
  have hvd : v.disk w.ext = s.b.disk w.ext := by
    refine h.view.vdN w.ext fun g' w' hw' hp' he => ?_
    have := h.ext_inj (by rw [← he]; exact (h.io.wOk g' w' hw').1) (h.io.wOk g w hw).1
    subst this; rw [hw] at hw'; cases hw'; rw [hp] at hp'; cases hp'
  by_cases hs : w.shallRead = true
  case neg =>
    have hs : w.shallRead = false := by simpa using hs
    refine ⟨_, doHandle_no s g hs, ?_, Fr.setPhase hw .handled s.b.disk, setWrr_same _ _ _⟩
    exact h.phase hw .handled s.b.disk hnh (by simp) (fun _ m _ hc => by rw [hs] at hc; cases hc) (fun _ _ => rfl) hvd.symm
  case pos =>
    rcases (h.io.wOk g w hw).2.2 with ⟨_, ⟨b1, b2, b3, b4⟩ | ⟨m, b1, b2, b3, b4, b5, b6, b7⟩⟩ | st
    case inr => rw [st.2.2.1] at hs; cases hs
    · rw [hs] at b3; cases b3
    · obtain ⟨c1, c2, c3, c4, c5, c6⟩ := b6 hs
      have hg := h.io.gvrOk m g b3
      have hrm : rrq s m = none := h.idle_taker hw hnh m b1
      have hrefs : (s.b.blocks m).refs = 0 ∧ First k.S m := by
        rcases hg.2.2.2 with hg | hg
        · obtain ⟨p, hq⟩ := Option.ne_none_iff_exists'.1 hg
          exact absurd (h.plan.rsvAcq m p hq).1 c2
        · exact hg.2
      have h1 := h.addDue (fun i => k.due i ∨ i = m) (fun i hi => .inl hi) (fun i hi hni => by
        rcases hi with hi | rfl
        · exact absurd hi hni
        · exact ⟨c3, fun _ => ⟨g, w, b3, hw, hs⟩, c2, hrefs.1, c5, c4, hrefs.2⟩)
      have h2 := h1.phase hw .handled s.b.disk hnh (by simp) (fun _ m' hm' _ => by rw [b1] at hm'; cases hm'; exact .inr rfl) (fun _ _ => rfl) hvd.symm
      obtain ⟨s', y1, y2, y3, y4, y5⟩ := startRead_ok h2 (m := m) (.inr rfl) hrm
        (by show (s.setWrr g _).wsched m = none; rw [setWrr_other _ _ b2]; exact c3)
        (fun g' w' hg' hw' => by
          have hg' : gvr s m = some g' := hg'
          rw [b3] at hg'; cases hg'
          have hw' : (s.setWrr g _).wsched g = some w' := hw'
          rw [setWrr_same] at hw'; cases hw'; rfl)
      refine ⟨s', ?_, ?_, (Fr.setPhase hw .handled s.b.disk).trans y3, ?_⟩
      · rw [doHandle_yes s g hs b1 c1]
        exact y1
      · have h3 := y2.dropDue k.due (fun i hi => .inl hi) (fun i hi hni => by
          rcases hi with hi | rfl
          · exact absurd hi hni
          · refine ⟨?_, fun g' w' hg' hw' => ?_, fun hc => absurd hc y4⟩
            · rw [y5]; show (s.setWrr g _).wsched i = none; rw [setWrr_other _ _ b2]; exact c3
            · rw [y3.gvr] at hg'
              have hg' : gvr s i = some g' := hg'
              rw [b3] at hg'; cases hg'
              rw [y5] at hw'
              have hw' : (s.setWrr g _).wsched g = some w' := hw'
              rw [setWrr_same] at hw'; cases hw'
              exact ⟨hs, fun _ => y4⟩)
        exact h3
      · rw [y5]; show (s.setWrr g _).wsched g = _; rw [setWrr_same]

theorem diskStep_ok {dflt : D} {a : Abs D} {k : Ctx} {v : Swap.St D} {s : St D} (h : Inv dflt a k v s) (x : Disk) :
    ∃ s', diskStep s x = some s' ∧ Inv dflt a k v s' ∧ Fr s s' := by
  cases x with
  | write g =>
    simp only [diskStep]
    cases hw : s.wsched g with
    | none => exact ⟨s, rfl, h, Fr.refl s⟩
    | some w =>
      simp only
      by_cases hp : w.phase = .pending
      · rw [if_pos hp]
        refine ⟨_, rfl, ?_, Fr.setPhase hw .moved _⟩
        have hnh : w.phase ≠ .handled := by rw [hp]; simp
        refine h.phase hw .moved _ hnh (by simp) (fun hc => by cases hc) (fun e he => by simp [he]) ?_
        simp only [if_true]
        exact h.view.intact g w hw (h.idle_taker hw hnh)
      · rw [if_neg hp]; exact ⟨s, rfl, h, Fr.refl s⟩
  | flag g =>
    simp only [diskStep]
    cases hw : s.wsched g with
    | none => exact ⟨s, rfl, h, Fr.refl s⟩
    | some w =>
      simp only
      by_cases hp : w.phase = .moved
      · rw [if_pos hp]
        refine ⟨_, rfl, ?_, Fr.setPhase hw .flagged s.b.disk⟩
        refine h.phase hw .flagged s.b.disk (by rw [hp]; simp) (by simp) (fun hc => by cases hc) (fun e he => rfl) ?_
        refine (h.view.vdN w.ext fun g' w' hw' hp' he => ?_).symm
        have := h.ext_inj (by rw [← he]; exact (h.io.wOk g' w' hw').1) (h.io.wOk g w hw).1
        subst this; rw [hw] at hw'; cases hw'; rw [hp] at hp'; cases hp'
      · rw [if_neg hp]; exact ⟨s, rfl, h, Fr.refl s⟩
  | handle g =>
    simp only [diskStep]
    cases hw : s.wsched g with
    | none => exact ⟨s, rfl, h, Fr.refl s⟩
    | some w =>
      simp only
      by_cases hp : w.phase = .flagged
      · rw [if_pos hp]
        obtain ⟨s', h1, h2, h3, _⟩ := doHandle_ok h hw hp
        exact ⟨s', h1, h2, h3⟩
      · rw [if_neg hp]; exact ⟨s, rfl, h, Fr.refl s⟩
  | read r =>
    obtain ⟨h1, h2, _⟩ := doRead_ok h r
    exact ⟨_, rfl, h1, h2⟩

theorem diskSteps_ok {dflt : D} {a : Abs D} {k : Ctx} {v : Swap.St D} (l : List Disk) : ∀ {s : St D}, Inv dflt a k v s →
    ∃ s', diskSteps s l = some s' ∧ Inv dflt a k v s' ∧ Fr s s' := by
  induction l with
  | nil => intro s h; exact ⟨s, rfl, h, Fr.refl s⟩
  | cons x l ih =>
    intro s h
    obtain ⟨s1, h1, h2, h3⟩ := diskStep_ok h x
    obtain ⟨s2, h4, h5, h6⟩ := ih h2
    exact ⟨s2, by simp [diskSteps, h1, h4], h5, h3.trans h6⟩

theorem sync_ok {dflt : D} {a : Abs D} {k : Ctx} {v : Swap.St D} {s : St D} (h : Inv dflt a k v s) :
    ∃ s', sync s = some s' ∧ Inv dflt a k v s' ∧ Fr s s' := by
  obtain ⟨s', h1, h2, h3⟩ := diskSteps_ok (s.orc.headD []) (h.misc s.orc.tail s.pred)
  exact ⟨s', h1, h2, ⟨⟨h3.b, h3.freeEv, h3.schedEv, h3.pred, h3.next, h3.sched⟩, h3.rrqMono, h3.wsched⟩⟩

/-- The remaining steps of a write request. -/
theorem finish_ok {dflt : D} {a : Abs D} {k : Ctx} {v : Swap.St D} {s : St D} (h : Inv dflt a k v s) {g : Nat} {w : Wrr} (hw : s.wsched g = some w) :
    ∃ s', diskSteps s [.write g, .flag g, .handle g] = some s' ∧ Inv dflt a k v s' ∧ Fr s s' ∧ s'.wsched g = some { w with phase := .handled } := by
  have hh : ∀ (t : St D) (x : Wrr), Inv dflt a k v t → t.wsched g = some x → x.phase = .flagged → ∃ s', diskSteps t [.handle g] = some s' ∧ Inv dflt a k v s' ∧ Fr t s' ∧ s'.wsched g = some { x with phase := .handled } := by
    intro t x ht hx hp
    obtain ⟨s', h1, h2, h3, h4⟩ := doHandle_ok ht hx hp
    exact ⟨s', by simp [diskSteps, diskStep, hx, hp, h1], h2, h3, h4⟩
  have hm : ∀ (t : St D) (x : Wrr), Inv dflt a k v t → t.wsched g = some x → x.phase = .moved → ∃ s', diskSteps t [.flag g, .handle g] = some s' ∧ Inv dflt a k v s' ∧ Fr t s' ∧ s'.wsched g = some { x with phase := .handled } := by
    intro t x ht hx hp
    obtain ⟨s1, h1, h2, h3⟩ := diskStep_ok ht (.flag g)
    have e1 : s1 = t.setWrr g (some { x with phase := .flagged }) := by
      simp only [diskStep, hx, hp, if_true, Option.some.injEq] at h1; exact h1.symm
    obtain ⟨s2, h4, h5, h6, h7⟩ := hh s1 { x with phase := .flagged } h2 (by rw [e1]; exact setWrr_same _ _ _) rfl
    exact ⟨s2, by simp only [diskSteps, h1, Option.bind_some] at h4 ⊢; exact h4, h5, h3.trans h6, h7⟩
  cases hp : w.phase with
  | pending =>
    obtain ⟨s1, h1, h2, h3⟩ := diskStep_ok h (.write g)
    have e1 : s1.wsched g = some { w with phase := .moved } := by
      simp only [diskStep, hw, hp, if_true, Option.some.injEq] at h1
      rw [← h1]; exact setWrr_same s g _
    obtain ⟨s2, h4, h5, h6, h7⟩ := hm s1 _ h2 e1 rfl
    exact ⟨s2, by rw [diskSteps, h1]; exact h4, h5, h3.trans h6, h7⟩
  | moved =>
    obtain ⟨s2, h4, h5, h6, h7⟩ := hm s w h hw hp
    refine ⟨s2, ?_, h5, h6, h7⟩
    rw [diskSteps]
    simp only [diskStep, hw, hp, if_neg (show ¬ Phase.moved = Phase.pending by simp), Option.bind_some]; exact h4
  | flagged =>
    obtain ⟨s2, h4, h5, h6, h7⟩ := hh s w h hw hp
    refine ⟨s2, ?_, h5, h6, h7⟩
    rw [diskSteps]
    simp only [diskStep, hw, hp, if_neg (show ¬ Phase.flagged = Phase.pending by simp), Option.bind_some]
    rw [diskSteps]
    simp only [diskStep, hw, hp, if_neg (show ¬ Phase.flagged = Phase.moved by simp), Option.bind_some]; exact h4
  | handled =>
    refine ⟨s, ?_, h, Fr.refl s, ?_⟩
    · simp [diskSteps, diskStep, hw, hp]
    · rw [hw, ← hp]

/-- The entry of a finished write request is erased. -/
theorem eraseWrr_ok {dflt : D} {a : Abs D} {k : Ctx} {v : Swap.St D} {s : St D} (h : Inv dflt a k v s) {g : Nat} {w : Wrr} (hw : s.wsched g = some w)
    (hp : w.phase = .handled) : Inv dflt a k v (s.setWrr g none) := by
  have hws : ∀ j x, (s.setWrr g none).wsched j = some x → s.wsched j = some x ∧ j ≠ g := by
    intro j x hj
    by_cases e : j = g
    · subst e; rw [setWrr_same] at hj; cases hj
    · rw [setWrr_other _ _ e] at hj; exact ⟨hj, e⟩
  have hwn : ∀ j, s.wsched j = none → (s.setWrr g none).wsched j = none := by
    intro j hj
    by_cases e : j = g
    · subst e; exact setWrr_same _ _ _
    · rw [setWrr_other _ _ e]; exact hj
  have hfr : Fr0 s (s.setWrr g none) := ⟨rfl, rfl, rfl, rfl, rfl, fun _ => rfl⟩
  refine ⟨h.sw, h.base.fr hfr, h.plan.fr hfr, ?_, ?_⟩
  · refine ⟨fun c r hr => ?_, h.io.rrqInj, fun c r g' x hr hg hx => h.io.rrqW c r g' x hr hg (hws g' x hx).1, h.io.rdOk, h.io.rdNd, h.io.gvrOk,
      fun c g' x hg hx => h.io.gvrW c g' x hg (hws g' x hx).1, fun g' x hx => ?_, h.io.dueOk⟩
    · obtain ⟨a1, a2, a3, a4, a5, a6, a7⟩ := h.io.rrqOk c r hr
      exact ⟨a1, a2, a3, a4, a5, hwn c a6, a7⟩
    · obtain ⟨a1, a2, ⟨a3, a4⟩ | a4⟩ := h.io.wOk g' x (hws g' x hx).1
      case inr => exact ⟨a1, a2, .inr (a4.same rfl rfl id ⟨rfl, rfl⟩ rfl)⟩
      refine ⟨a1, a2, .inl ⟨a3, ?_⟩⟩
      rcases a4 with b | ⟨m, b1, b2, b3, b4, b5, b6, b7⟩
      · exact .inl b
      · refine .inr ⟨m, b1, b2, b3, b4, b5, fun hs => ?_, b7⟩
        obtain ⟨c1, c2, c3, c4⟩ := b6 hs
        exact ⟨c1, c2, hwn m c3, c4⟩
  · have hrd : ∀ i, Rdg k s i ↔ Rdg k (s.setWrr g none) i := by
      intro i
      constructor
      · rintro (h1 | ⟨h1, h2⟩)
        · exact .inl h1
        · refine .inr ⟨h1, ?_⟩
          rcases h2 with h2 | ⟨g', w', h2, h3, h4⟩
          · exact .inl h2
          · by_cases e : g' = g
            · subst e
              rw [hw] at h3; cases h3
              have ht := h.io.gvrW i g' w h2 hw
              rcases (h.io.wOk g' w hw).2.2 with ⟨_, ⟨b1, b2, b3, b4⟩ | ⟨m, b1, b2, b3, b4, b5, b6, b7⟩⟩ | st
              · rw [b3] at h4; cases h4
              · rw [b1] at ht; cases ht
                rcases (b6 h4).2.2.2.2.2 hp with hc | hc
                · exact absurd h1 hc
                · exact .inl hc
              · rw [st.2.2.1] at h4; cases h4
            · exact .inr ⟨g', w', h2, by rw [setWrr_other _ _ e]; exact h3, h4⟩
      · rintro (h1 | ⟨h1, h2⟩)
        · exact .inl h1
        · refine .inr ⟨h1, h2.imp id ?_⟩
          rintro ⟨g', w', h2, h3, h4⟩
          exact ⟨g', w', h2, (hws g' w' h3).1, h4⟩
    refine ⟨fun g' x hx => h.view.intact g' x (hws g' x hx).1, fun e he => ?_, fun i p e hi => h.view.vmR i p e ((hrd i).2 hi),
      fun p hp' => h.view.vmN p fun i hi hc => hp' i hi ((hrd i).1 hc)⟩
    refine h.view.vdN e fun g' y hy hyp => ?_
    by_cases e' : g' = g
    · subst e'; rw [hw] at hy; cases hy; rw [hp] at hyp; cases hyp
    · exact he g' y (by rw [setWrr_other _ _ e']; exact hy) hyp

/-- `wait_on_write` -/
theorem waitWrite_ok {dflt : D} {a : Abs D} {k : Ctx} {v : Swap.St D} {s : St D} (h : Inv dflt a k v s) (g : Nat) :
    ∃ s', waitWrite s g = some s' ∧ Inv dflt a k v s' ∧ Fr0 s s' ∧ s'.wsched g = none ∧
      (∀ j, j ≠ g → (s'.wsched j).map (fun w => { w with phase := .pending }) = (s.wsched j).map (fun w => { w with phase := .pending })) ∧
      (∀ w, s.wsched g = some w → (∀ m, w.taker = some m → rrq s' m = none) → s'.b.mem w.buf = v.disk w.ext) ∧
      (∀ w, s.wsched g = some w → rrq s' g = none) := by
  unfold waitWrite
  cases hw : s.wsched g with
  | none => exact ⟨s, rfl, h, Fr0.refl s, hw, fun _ _ => rfl, fun w hc => (nomatch hc), fun w hc => (nomatch hc)⟩
  | some w =>
    simp only
    obtain ⟨s1, h1, h2, h3⟩ := sync_ok h
    obtain ⟨ph, h4⟩ := h3.wSome hw
    obtain ⟨s2, h5, h6, h7, h8⟩ := finish_ok h2 h4
    have hf := h3.trans h7
    refine ⟨s2.setWrr g none, by rw [h1, Option.bind_some, h5]; rfl, eraseWrr_ok h6 h8 rfl, ?_, setWrr_same _ _ _, fun j hj => ?_, fun w' hw' hi => ?_, fun w' hw' => ?_⟩
    · exact hf.toFr0.trans ⟨rfl, rfl, rfl, rfl, rfl, fun _ => rfl⟩
    · rw [setWrr_other _ _ hj]; exact hf.wsched j
    · cases hw'
      have := h6.view.intact g _ h8
      exact this hi
    · show rrq s2 g = none
      cases hr : rrq s2 g with
      | none => rfl
      | some r => have := (h6.io.rrqOk g r hr).2.2.2.2.2.1; rw [h8] at this; cases this

/-- The giver of a block is forgotten after its write request has finished. -/
theorem clearGiver_ok {dflt : D} {a : Abs D} {k : Ctx} {v : Swap.St D} {s : St D} (h : Inv dflt a k v s) {c g : Nat} {m : Meta} (hm : s.sched c = some m)
    (hg : m.giver = some g) (hw : s.wsched g = none) : Inv dflt a k v (s.setMeta c (some { m with giver := none })) := by
  have hrsv : ∀ d, rsv (s.setMeta c (some { m with giver := none })) d = rsv s d := by
    intro d; rw [rsv_setMeta]; split
    · rename_i e; subst e; exact (rsv_of hm).symm
    · rfl
  have hrrq : ∀ d, rrq (s.setMeta c (some { m with giver := none })) d = rrq s d := by
    intro d; rw [rrq_setMeta]; split
    · rename_i e; subst e; exact (rrq_of hm).symm
    · rfl
  have hops : ∀ d, opsOf (s.setMeta c (some { m with giver := none })) d = opsOf s d := by
    intro d; rw [opsOf_setMeta]; split
    · rename_i e; subst e; exact (opsOf_of hm).symm
    · rfl
  have hgvr : ∀ d g', gvr (s.setMeta c (some { m with giver := none })) d = some g' → gvr s d = some g' ∧ d ≠ c := by
    intro d g' hd; rw [gvr_setMeta] at hd; split at hd
    · cases hd
    · rename_i e; exact ⟨hd, e⟩
  have hgvr' : ∀ d g', d ≠ c → gvr s d = some g' → gvr (s.setMeta c (some { m with giver := none })) d = some g' := by
    intro d g' hd he; rw [gvr_setMeta, if_neg hd]; exact he
  have hgc : gvr s c = some g := by rw [gvr_of hm]; exact hg
  refine ⟨h.sw, ?_, ?_, ?_, ?_⟩
  · refine ⟨h.base.blocks, h.base.n, h.base.held, h.base.next, h.base.remaining, h.base.max, fun p => ?_, h.base.freeNd, fun d p => ?_, fun d e p => ?_, h.base.vev, h.base.disj⟩
    · simp only [hrsv]; exact h.base.vfree p
    · rw [hrsv]; exact h.base.rsvFree d p
    · rw [hrsv, hrsv]; exact h.base.rsvInj d e p
  · refine ⟨fun d => by rw [hops]; exact h.plan.ops d, fun d x hx => ?_, h.plan.ids, fun d p => by rw [hrsv]; exact h.plan.rsvAcq d p,
      fun d => by rw [hrsv]; exact h.plan.acqRsv d, h.plan.pre, h.plan.evF, h.plan.evS⟩
    by_cases e : d = c
    · subst e; rw [setMeta_same] at hx; cases hx; exact h.plan.opsNe d m hm
    · rw [setMeta_other _ _ e] at hx; exact h.plan.opsNe d x hx
  · refine ⟨fun d r => by rw [hrrq]; exact h.io.rrqOk d r, fun d e r => by rw [hrrq, hrrq]; exact h.io.rrqInj d e r,
      fun d r g' w hr hd => by rw [hrrq] at hr; exact h.io.rrqW d r g' w hr (hgvr d g' hd).1, fun x hx => ?_, h.io.rdNd, fun d g' hd => ?_,
      fun d g' w hd => h.io.gvrW d g' w (hgvr d g' hd).1, fun g' w hw' => ?_, h.io.dueOk⟩
    · obtain ⟨d, hd⟩ := h.io.rdOk x hx
      exact ⟨d, by rw [hrrq]; exact hd⟩
    · rw [hrsv]; exact h.io.gvrOk d g' (hgvr d g' hd).1
    · have hw' : s.wsched g' = some w := hw'
      obtain ⟨a1, a2, ⟨a3, a4⟩ | a4⟩ := h.io.wOk g' w hw'
      case inr => exact ⟨a1, a2, .inr (a4.same rfl rfl id ⟨rfl, rfl⟩ rfl)⟩
      have hne : g' ≠ g := by rintro rfl; rw [hw] at hw'; cases hw'
      refine ⟨a1, a2, .inl ⟨a3, ?_⟩⟩
      rcases a4 with ⟨b1, b2, b3, b4⟩ | ⟨x, b1, b2, b3, b4, b5, b6, b7⟩
      · refine .inl ⟨b1, b2, b3, b4.imp id fun ⟨b4, b5⟩ => ⟨b4, hgvr' g' g' ?_ b5⟩⟩
        rintro rfl; rw [hgc] at b5; cases b5; exact hne rfl
      · refine .inr ⟨x, b1, b2, hgvr' x g' ?_ b3, ?_, b5, fun hs => ?_, b7⟩
        · rintro rfl; rw [hgc] at b3; cases b3; exact hne rfl
        · unfold bufOf at b4 ⊢; rw [hrsv]; exact b4
        · rw [hrrq]; exact b6 hs
  · have hrd : ∀ i, Rdg k s i ↔ Rdg k (s.setMeta c (some { m with giver := none })) i := by
      intro i
      unfold Rdg
      rw [hrrq]
      constructor
      · rintro (h1 | ⟨h1, h2⟩)
        · exact .inl h1
        · refine .inr ⟨h1, h2.imp id ?_⟩
          rintro ⟨g', w, y1, y2, y3⟩
          refine ⟨g', w, hgvr' i g' ?_ y1, y2, y3⟩
          rintro rfl; rw [hgc] at y1; cases y1; rw [hw] at y2; cases y2
      · rintro (h1 | ⟨h1, h2⟩)
        · exact .inl h1
        · refine .inr ⟨h1, h2.imp id ?_⟩
          rintro ⟨g', w, y1, y2, y3⟩
          exact ⟨g', w, (hgvr i g' y1).1, y2, y3⟩
    refine ⟨fun g' w hw' hi => h.view.intact g' w hw' fun x hx => ?_, h.view.vdN, fun i p e hi => h.view.vmR i p e ((hrd i).2 hi),
      fun p hp' => h.view.vmN p fun i hi hc => hp' i hi ((hrd i).1 hc)⟩
    have := hi x hx
    rw [hrrq] at this; exact this

/-- What remains the same when the client waits for a block. -/
structure FrW (s s' : St D) : Prop where
  b : s'.b = { s.b with mem := s'.b.mem, disk := s'.b.disk }
  freeEv : s'.freeEv = s.freeEv
  schedEv : s'.schedEv = s.schedEv
  pred : s'.pred = s.pred
  next : s'.next = s.next
  rsv : ∀ c, rsv s' c = rsv s c
  opsOf : ∀ c, opsOf s' c = opsOf s c

theorem FrW.refl (s : St D) : FrW s s := ⟨rfl, rfl, rfl, rfl, rfl, fun _ => rfl, fun _ => rfl⟩

theorem FrW.trans {s t u : St D} (h1 : FrW s t) (h2 : FrW t u) : FrW s u :=
  ⟨by rw [h2.b, h1.b], by rw [h2.freeEv, h1.freeEv], by rw [h2.schedEv, h1.schedEv], by rw [h2.pred, h1.pred], by rw [h2.next, h1.next],
   fun c => by rw [h2.rsv, h1.rsv], fun c => by rw [h2.opsOf, h1.opsOf]⟩

theorem Fr0.frW {s s' : St D} (h : Fr0 s s') : FrW s s' := ⟨h.b, h.freeEv, h.schedEv, h.pred, h.next, h.rsv, h.opsOf⟩

theorem Fr0.sched_some {s s' : St D} (h : Fr0 s s') {c : Nat} {m : Meta} (hm : s.sched c = some m) : ∃ r, s'.sched c = some { m with readReq := r } := by
  have := h.sched c
  rw [hm] at this
  cases h1 : s'.sched c with
  | none => rw [h1] at this; cases this
  | some m1 =>
    rw [h1] at this
    cases m; cases m1
    simp only [Option.map_some, Option.some.injEq, Meta.mk.injEq] at this
    obtain ⟨rfl, rfl, -, rfl⟩ := this
    exact ⟨_, rfl⟩

/-- `get_ready_block` up to 1424 -/
theorem waitGiver_ok {dflt : D} {a : Abs D} {k : Ctx} {v : Swap.St D} {s : St D} (h : Inv dflt a k v s) {c : Nat} {m : Meta} (hm : s.sched c = some m) :
    ∃ s', waitGiver s c = some s' ∧ Inv dflt a k v s' ∧ FrW s s' ∧ gvr s' c = none ∧ ∃ m', s'.sched c = some m' := by
  unfold waitGiver
  rw [hm]
  simp only
  cases hg : m.giver with
  | none => exact ⟨s, rfl, h, FrW.refl s, by rw [gvr_of hm]; exact hg, m, hm⟩
  | some g =>
    simp only
    obtain ⟨s1, h1, h2, h3, h4, _⟩ := waitWrite_ok h g
    obtain ⟨r, h5⟩ := h3.sched_some hm
    refine ⟨_, by rw [h1, Option.bind_some, h5]; rfl, clearGiver_ok h2 h5 hg h4, ?_, by rw [gvr_setMeta]; simp, _, setMeta_same _ _ _⟩
    refine h3.frW.trans ⟨rfl, rfl, rfl, rfl, rfl, fun d => ?_, fun d => ?_⟩
    · rw [rsv_setMeta]; split
      · rename_i e; subst e; exact (rsv_of h5).symm
      · rfl
    · rw [opsOf_setMeta]; split
      · rename_i e; subst e; exact (opsOf_of h5).symm
      · rfl

/-- A finished read request is forgotten. -/
theorem clearRead_ok {dflt : D} {a : Abs D} {k : Ctx} {v : Swap.St D} {s : St D} (h : Inv dflt a k v s) {c r : Nat} {m : Meta} (hm : s.sched c = some m)
    (hr : m.readReq = some r) (hn : r ∉ s.reads.map (·.id)) (hg : gvr s c = none) (hd : ¬ k.due c) : Inv dflt a k v (s.setMeta c (some { m with readReq := none })) := by
  have hrsv : ∀ d, rsv (s.setMeta c (some { m with readReq := none })) d = rsv s d := by
    intro d; rw [rsv_setMeta]; split
    · rename_i e; subst e; exact (rsv_of hm).symm
    · rfl
  have hgvr : ∀ d, gvr (s.setMeta c (some { m with readReq := none })) d = gvr s d := by
    intro d; rw [gvr_setMeta]; split
    · rename_i e; subst e; exact (gvr_of hm).symm
    · rfl
  have hrrq : ∀ d r', rrq (s.setMeta c (some { m with readReq := none })) d = some r' → rrq s d = some r' ∧ d ≠ c := by
    intro d g' hd; rw [rrq_setMeta] at hd; split at hd
    · cases hd
    · rename_i e; exact ⟨hd, e⟩
  have hrrq' : ∀ d, d ≠ c → rrq (s.setMeta c (some { m with readReq := none })) d = rrq s d := by
    intro d hd; rw [rrq_setMeta, if_neg hd]
  have hrc : rrq s c = some r := by rw [rrq_of hm]; exact hr
  have hfr : Fr0 s (s.setMeta c (some { m with readReq := none })) := by
    refine ⟨rfl, rfl, rfl, rfl, rfl, fun d => ?_⟩
    by_cases e : d = c
    · subst e; rw [setMeta_same, hm]; rfl
    · rw [setMeta_other _ _ e]
  refine ⟨h.sw, h.base.fr hfr, h.plan.fr hfr, ?_, ?_⟩
  · refine ⟨fun d r' h1 => h.io.rrqOk d r' (hrrq d r' h1).1, fun d e r' h1 h2 => h.io.rrqInj d e r' (hrrq d r' h1).1 (hrrq e r' h2).1,
      fun d r' g' w h1 hd => by rw [hgvr] at hd; exact h.io.rrqW d r' g' w (hrrq d r' h1).1 hd, fun x hx => ?_, h.io.rdNd, fun d g' => by rw [hgvr, hrsv]; exact h.io.gvrOk d g',
      fun d g' w => by rw [hgvr]; exact h.io.gvrW d g' w, fun g' w hw' => ?_, h.io.dueOk⟩
    · obtain ⟨d, hd1, hd2⟩ := h.io.rdOk x hx
      refine ⟨d, ?_, hd2⟩
      rw [hrrq']
      · exact hd1
      · rintro rfl; rw [hrc] at hd1; cases hd1; exact hn (List.mem_map.2 ⟨x, hx, rfl⟩)
    · obtain ⟨a1, a2, ⟨a3, a4⟩ | a4⟩ := h.io.wOk g' w hw'
      case inr => exact ⟨a1, a2, .inr (a4.same rfl rfl id ⟨rfl, rfl⟩ rfl)⟩
      refine ⟨a1, a2, .inl ⟨a3, ?_⟩⟩
      rcases a4 with ⟨b1, b2, b3, b4⟩ | ⟨x, b1, b2, b3, b4, b5, b6, b7⟩
      · exact .inl ⟨b1, b2, b3, by rw [hgvr]; exact b4⟩
      · refine .inr ⟨x, b1, b2, by rw [hgvr]; exact b3, ?_, b5, fun hs => ?_, b7⟩
        · unfold bufOf at b4 ⊢; rw [hrsv]; exact b4
        · rw [hrrq' x]
          · exact b6 hs
          · rintro rfl; rw [hg] at b3; cases b3
  · have hrd : ∀ i, Rdg k s i ↔ Rdg k (s.setMeta c (some { m with readReq := none })) i := by
      intro i
      unfold Rdg
      by_cases ei : i = c
      · subst ei
        constructor
        · rintro (⟨r', h1, h2⟩ | ⟨h1, h2⟩)
          · rw [hrc] at h1; cases h1; exact absurd h2 hn
          · rw [hrc] at h1; cases h1
        · rintro (⟨r', h1, h2⟩ | ⟨h1, h2⟩)
          · exact absurd rfl (hrrq i r' h1).2
          · rcases h2 with h2 | ⟨g', w, h2, _⟩
            · exact absurd h2 hd
            · rw [hgvr, hg] at h2; cases h2
      · rw [hrrq' i ei, hgvr]; exact Iff.rfl
    refine ⟨fun g' w hw' hi => h.view.intact g' w hw' fun x hx => ?_, h.view.vdN, fun i p e hi => h.view.vmR i p e ((hrd i).2 hi),
      fun p hp' => h.view.vmN p fun i hi hc => hp' i hi ((hrd i).1 hc)⟩
    have h1 := hi x hx
    rw [hrrq'] at h1
    · exact h1
    · rintro rfl
      rcases (h.io.wOk g' w hw').2.2 with ⟨_, ⟨b1, b2, b3, b4⟩ | ⟨y, b1, b2, b3, _⟩⟩ | st
      · rcases b4 with b4 | b4
        · rw [b4.1] at hx; cases hx
        · rw [b4.1] at hx; cases hx; rw [hg] at b4; cases b4.2
      · rw [b1] at hx; cases hx; rw [hg] at b3; cases b3
      · rw [st.2.1] at hx; cases hx

/-- `wait_on_read` -/
theorem waitRead_ok {dflt : D} {a : Abs D} {k : Ctx} {v : Swap.St D} {s : St D} (h : Inv dflt a k v s) {c : Nat} {m : Meta} (hm : s.sched c = some m) (hd : ¬ k.due c) :
    ∃ s', waitRead s c = some s' ∧ Inv dflt a k v s' ∧ FrW s s' ∧ gvr s' c = none ∧ rrq s' c = none ∧ ∃ m', s'.sched c = some m' := by
  unfold waitRead
  obtain ⟨s1, h1, h2, h3, h4, m1, h5⟩ := waitGiver_ok h hm
  rw [h1, Option.bind_some, h5]
  simp only
  cases hr : m1.readReq with
  | none => exact ⟨s1, rfl, h2, h3, h4, by rw [rrq_of h5]; exact hr, m1, h5⟩
  | some r =>
    simp only
    obtain ⟨s2, h6, h7, h8⟩ := sync_ok h2
    obtain ⟨h9, h10, h11, h12, h13⟩ := doRead_ok h7 r
    obtain ⟨r', h14⟩ := h8.sched_some h5
    have hrr : r' = some r := by
      have e1 := h8.rrqMono c r (by rw [rrq_of h5]; exact hr)
      rw [rrq_of h14] at e1; exact e1
    subst hrr
    rw [h6, Option.bind_some, h12, h14]
    refine ⟨_, rfl, clearRead_ok h9 (by rw [h12]; exact h14) rfl h11 ?_ hd, ?_, ?_, ?_, _, setMeta_same _ _ _⟩
    · rw [h10.gvr, h8.gvr]; exact h4
    · refine h3.trans (h8.toFr0.frW.trans (h10.toFr0.frW.trans ⟨rfl, rfl, rfl, rfl, rfl, fun d => ?_, fun d => ?_⟩))
      · rw [rsv_setMeta]; split
        · rename_i e; subst e; rw [rsv_of (by rw [h12]; exact h14)]
        · rfl
      · rw [opsOf_setMeta]; split
        · rename_i e; subst e; rw [opsOf_of (by rw [h12]; exact h14)]
        · rfl
    · rw [gvr_setMeta, if_pos rfl]
      rw [gvr_of h5] at h4; exact h4
    · rw [rrq_setMeta, if_pos rfl]

end Foxxll.Ahead
