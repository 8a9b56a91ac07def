import Verif.Proofs.AheadOps

set_option linter.unusedSimpArgs false
set_option linter.unusedVariables false
set_option linter.unusedSectionVars false

/-
offline_lru_prefetching: the calls `release` and `deinitialize`.
-/
namespace Foxxll.Ahead
open Foxxll.Swap (SB Env POp Elem Op Res Abs Allowed Expected)

variable {D : Type} [Slack D]

/-- During an operation, after everything but `operation_done`. -/
structure Mid (dflt : D) (a : Abs D) (x : Elem) (s : St D) (S : List Elem) (v : Swap.St D) : Prop where
  inv : Inv dflt a { S := S, cur := some x } v s
  pred : s.pred = S ++ s.next
  plain : Rest s

theorem done_ok {dflt : D} {a : Abs D} {s : St D} {x : Elem} {S : List Elem} {v : Swap.St D} (h : Mid dflt a x s S v) (hs : Stuck s) :
    ∃ s', opDone s x.id = some s' ∧ SInv dflt a s' S v := by
  obtain ⟨s', o1, o2, o3, o4, o5, o6, o7⟩ := opDone_ok h.inv rfl
  refine ⟨s', o1, o2, by rw [o4, o5]; exact h.pred, ⟨by rw [o5, o3]; exact h.plain.1, by rw [o4]; exact h.plain.2⟩, ?_⟩
  intro y l hy
  rw [o5] at hy
  rw [o3, o6, o7]; exact hs y l hy

theorem scheduleNext_ok (E : Env D) (hE : ∀ l, E.pick l ∉ l) {dflt : D} {a : Abs D} {s : St D} {x : Elem} {S : List Elem} {v : Swap.St D} (h : Mid dflt a x s S v)
    (hc : x.id ∈ s.freeEv → touches x.op = false) (hb : (s.b.blocks x.id).isInitialized = true → s.b.free = [] ∧ s.b.remaining = 0 ∧ ∀ i ∈ s.freeEv, i = x.id) :
    ∃ s' S' v', scheduleNext E s = some s' ∧ Mid dflt a x s' S' v' ∧ Stuck s' := by
  obtain ⟨s', v', S', h1, h2, h3, h4, h5, h6⟩ := scheduleLoop_ok E hE s.next h.inv ⟨fun i hc => hc, rfl, rfl, fun y hy => by cases hy; exact hc, fun y hy => by cases hy; exact hb⟩ rfl rfl h.plain.1
  exact ⟨s', S', v', h1, ⟨h2, by rw [h4.pred, h.pred, ← h3], ⟨fun y hy => by rw [h4.n]; exact h.plain.1 y (h6 y hy), by rw [h4.pred]; exact h.plain.2⟩⟩, h5⟩

/-- A block gives up its internal block and its data. -/
structure Dropped (s t : St D) (c p : Nat) (keep : Bool) : Prop where
  touched : Touched s t c
  blk : t.b.blocks c = {}
  n : t.b.n = s.b.n
  held : t.b.held = s.b.held
  nextInt : t.b.next = s.b.next
  remaining : t.b.remaining = s.b.remaining
  max : t.b.max = s.b.max
  mem : t.b.mem = s.b.mem
  free : t.b.free = if keep then s.b.free else p :: s.b.free
  rsv : Ahead.rsv t c = if keep then some p else none
  ops : ∀ i, opsOf t i = opsOf s i
  ne : ∀ i m, t.sched i = some m → ∃ m', s.sched i = some m' ∧ m'.ops = m.ops
  fe : ∀ i, i ∈ t.freeEv ↔ i ∈ s.freeEv ∧ i ≠ c
  se : ∀ i, i ∈ t.schedEv ↔ i ∈ s.schedEv ∧ i ≠ c

theorem drop_ok {dflt : D} {a a' : Abs D} {v v1 : Swap.St D} {s t : St D} {x : Elem} {S : List Elem} {p : Nat} {keep : Bool} (h : Inv dflt a { S := x :: S } v s)
    (ht : Dropped s t x.id p keep) (hp : (s.b.blocks x.id).int = some p) (hg : gvr s x.id = none) (hr : rrq s x.id = none) (hw : s.wsched x.id = none) (hgc : ∀ d, gvr s d ≠ some x.id)
    (hk : keep = true ↔ HasAcq S x.id)
    (hsw : Swap.Inv dflt v1 a') (vb : v1.blocks = (v.set x.id {}).blocks) (vn : v1.n = v.n) (vh : v1.held = v.held) (vx : v1.next = v.next) (vr : v1.remaining = v.remaining)
    (vm : v1.max = v.max) (vf : v1.free = p :: v.free) (vmem : v1.mem = v.mem) (vd : v1.disk = v.disk) (ve : ∀ i, i ∈ v1.evict.map (·.2) ↔ i ∈ v.evict.map (·.2) ∧ i ≠ x.id) :
    Inv dflt a' { S := S, cur := some x } v1 t := by
  have hT := ht.touched
  have hpv : (v.blocks x.id).int = some p := by rw [h.base.blocks]; exact hp
  have hpn : p ∉ v.free := (h.sw.core.att x.id p hpv).2.2.1
  have hrc : rsv s x.id = none := by
    cases hz : rsv s x.id with
    | none => rfl
    | some q => have := (h.plan.rsvAcq _ q hz).1; rw [hp] at this; cases this
  have hpf : p ∉ s.b.free := fun hc => hpn ((h.base.vfree p).2 (.inl hc))
  have hpr : ∀ i, rsv s i ≠ some p := fun i hc => h.int_rsv hp hc
  have hrsv : ∀ i q, rsv t i = some q → (i = x.id ∧ keep = true ∧ q = p) ∨ (i ≠ x.id ∧ rsv s i = some q) := by
    intro i q hq
    by_cases e : i = x.id
    · subst e
      rw [ht.rsv] at hq
      cases keep with
      | true => exact .inl ⟨rfl, rfl, by simpa using hq.symm⟩
      | false => simp at hq
    · rw [hT.rsv i e] at hq; exact .inr ⟨e, hq⟩
  refine touch_ok h hT hr (fun w hc => by rw [hw] at hc; cases hc) rfl (fun d hd => absurd hd (hgc d)) (fun i hc => hc) (fun i hc => hc) (fun g hc => by rw [hg] at hc; cases hc) (fun i hi => opsIn_tail hi) bef_next hsw ?_ ?_ vd
    (fun q => .inl ⟨by rw [vmem], by rw [ht.mem]⟩)
  · refine ⟨?_, by rw [vn, ht.n]; exact h.base.n, by rw [vh, ht.held]; exact h.base.held, by rw [vx, ht.nextInt]; exact h.base.next, by rw [vr, ht.remaining]; exact h.base.remaining,
      by rw [vm, ht.max]; exact h.base.max, fun q => ?_, ?_, fun i q hq => ?_, fun i j q h1 h2 => ?_, fun i => ?_, fun i h1 h2 => h.base.disj i ((ht.fe i).1 h1).1 ((ht.se i).1 h2).1⟩
    · funext i
      rw [vb]
      by_cases e : i = x.id
      · subst e; rw [Swap.set_same, ht.blk]
      · rw [Swap.set_other _ _ e, hT.blocks i e, h.base.blocks]
    · rw [vf, List.mem_cons, h.base.vfree q, ht.free]
      constructor
      · rintro (rfl | h1 | ⟨i, h1⟩)
        · cases keep with
          | true => exact .inr ⟨x.id, by rw [ht.rsv]; rfl⟩
          | false => left; simp
        · left; cases keep with
          | true => exact h1
          | false => exact List.mem_cons_of_mem _ h1
        · have hne : i ≠ x.id := by rintro rfl; rw [hrc] at h1; cases h1
          exact .inr ⟨i, by rw [hT.rsv i hne]; exact h1⟩
      · rintro (h1 | ⟨i, h1⟩)
        · cases keep with
          | true => exact .inr (.inl h1)
          | false =>
            rcases List.mem_cons.1 h1 with h1 | h1
            · exact .inl h1
            · exact .inr (.inl h1)
        · rcases hrsv i q h1 with ⟨_, _, h2⟩ | ⟨_, h2⟩
          · exact .inl h2
          · exact .inr (.inr ⟨i, h2⟩)
    · rw [ht.free]
      cases keep with
      | true => exact h.base.freeNd
      | false => exact List.nodup_cons.2 ⟨hpf, h.base.freeNd⟩
    · rw [ht.free]
      rcases hrsv i q hq with ⟨_, h2, rfl⟩ | ⟨_, h2⟩
      · rw [h2]; exact hpf
      · cases keep with
        | true => exact h.base.rsvFree i q h2
        | false =>
          intro hc
          rcases List.mem_cons.1 hc with rfl | hc
          · exact hpr i h2
          · exact h.base.rsvFree i q h2 hc
    · rcases hrsv i q h1 with ⟨k1, _, k2⟩ | ⟨k1, k2⟩ <;> rcases hrsv j q h2 with ⟨k3, _, k4⟩ | ⟨k3, k4⟩
      · rw [k1, k3]
      · rw [k2] at k4; exact absurd k4 (hpr j)
      · rw [k4] at k2; exact absurd k2 (hpr i)
      · exact h.base.rsvInj i j q k2 k4
    · rw [ve, h.base.vev i, ht.fe, ht.se]
      simp only [reduceCtorEq, or_false]
      constructor
      · rintro ⟨h1 | h1, h2⟩
        · exact .inl ⟨h1, h2⟩
        · exact .inr ⟨h1, h2⟩
      · rintro (h1 | h1)
        · exact ⟨.inl h1.1, h1.2⟩
        · exact ⟨.inr h1.1, h1.2⟩
  · refine plan_next h.plan rfl rfl rfl (.inl rfl) ht.ops (fun i m hm => ?_) ht.n hT.rsv hT.blocks (fun i _ h1 => ((ht.fe i).1 h1).1) (fun i _ h1 => ((ht.se i).1 h1).1) ?_ ?_ ?_ ?_ ?_
    · obtain ⟨m', h1, h2⟩ := ht.ne i m hm
      rw [← h2]; exact h.plan.opsNe i m' h1
    · intro q hq
      rw [ht.blk]
      refine ⟨rfl, hk.1 ?_⟩
      rcases hrsv _ q hq with ⟨_, h2, _⟩ | ⟨h1, _⟩
      · exact h2
      · exact absurd rfl h1
    · intro h1 _ _
      rw [ht.rsv, hk.2 h1]; simp
    · intro _ h1; rw [ht.blk] at h1; cases h1
    · intro h1; exact absurd rfl ((ht.fe _).1 h1).2
    · intro h1; exact absurd rfl ((ht.se _).1 h1).2

/-- The flags of an acquired block change, and it may become evictable. -/
theorem flags_ok {dflt : D} {a a' : Abs D} {v : Swap.St D} {s : St D} {x : Elem} {S : List Elem} {p : Nat} {y : SB} (ev : List (Nat × Nat)) (fe se : List Nat)
    (h : Inv dflt a { S := x :: S } v s) (hp : (s.b.blocks x.id).int = some p) (hr : 0 < (s.b.blocks x.id).refs) (hy : y.int = some p)
    (hsw : Swap.Inv dflt { v.set x.id y with evict := ev } a')
    (hev : ∀ i, i ∈ ev.map (·.2) ↔ i ∈ fe ∨ i ∈ se) (hdj : ∀ i, i ∈ fe → i ∉ se) (hfe : ∀ i, i ≠ x.id → i ∈ fe → i ∈ s.freeEv) (hse : ∀ i, i ≠ x.id → i ∈ se → i ∈ s.schedEv)
    (c4 : x.id ∈ fe → ¬ HasAcq S x.id ∧ (y.dirty = true → POp.deinit ∉ opsIn S x.id))
    (c5 : x.id ∈ se → HasAcq S x.id ∨ (y.dirty = true ∧ POp.deinit ∈ opsIn S x.id) ∨ shallClean (opsIn S x.id) = true)
    (hyw : ∀ w, s.wsched x.id = some w → y.ext = some w.ext ∧ y.dirty = false ∧ ∀ t : St D, (t.b.blocks x.id).int ≠ none → Stray { S := S, cur := some x } t x.id w) :
    Inv dflt a' { S := S, cur := some x } { v.set x.id y with evict := ev } { s.setBlk x.id y with freeEv := fe, schedEv := se } := by
  obtain ⟨q1, q2, q3, q4, q5, q6, q7, _⟩ := h.quiet_acquired hr
  generalize ht : ({ s.setBlk x.id y with freeEv := fe, schedEv := se } : St D) = t
  have tsame : t.b.blocks x.id = y := by rw [← ht]; exact setBlk_b_same _ _ _
  have toth : ∀ i, i ≠ x.id → t.b.blocks i = s.b.blocks i := fun i hi => by rw [← ht]; exact setBlk_b_other _ _ hi
  have trsv : ∀ i, rsv t i = rsv s i := fun i => by rw [← ht]; rfl
  have tf : t.freeEv = fe := by rw [← ht]
  have tse : t.schedEv = se := by rw [← ht]
  have hT : Touched s t x.id := ⟨by rw [← ht]; rfl, by rw [← ht]; rfl, by rw [← ht]; rfl, by rw [← ht]; rfl, fun i => by rw [← ht]; rfl, fun i => by rw [← ht]; rfl, fun i _ => trsv i, toth, by rw [← ht]; rfl⟩
  refine touch_ok h hT q2 (fun w hw => by
    obtain ⟨a1, a2, st⟩ := hyw w hw
    exact ⟨by rw [tsame]; exact a1, by rw [tsame]; exact a2, st t (by rw [tsame, hy]; simp)⟩) rfl
    (fun d hd => absurd hd (q3 d)) (fun i hc => hc) (fun i hc => hc) (fun g hc => by rw [q1] at hc; cases hc) (fun i hi => opsIn_tail hi) bef_next hsw ?_ ?_ rfl
    (fun p => .inl ⟨rfl, by rw [← ht]; rfl⟩)
  · refine ⟨?_, by rw [← ht]; exact h.base.n, by rw [← ht]; exact h.base.held, by rw [← ht]; exact h.base.next, by rw [← ht]; exact h.base.remaining,
      by rw [← ht]; exact h.base.max, fun q => ?_, by rw [← ht]; exact h.base.freeNd, fun i q => ?_, by simp only [trsv]; exact h.base.rsvInj, fun i => ?_, by rw [tf, tse]; exact hdj⟩
    · funext i
      show (v.set x.id y).blocks i = _
      by_cases e : i = x.id
      · subst e; rw [Swap.set_same, tsame]
      · rw [Swap.set_other _ _ e, toth i e, h.base.blocks]
    · simp only [trsv]; rw [← ht]; exact h.base.vfree q
    · rw [trsv, ← ht]; exact h.base.rsvFree i q
    · rw [tf, tse]; simp only [reduceCtorEq, or_false]; exact hev i
  · refine plan_next h.plan rfl rfl rfl (.inl rfl) (fun i => by rw [← ht]; rfl) (by rw [← ht]; exact h.plan.opsNe) (by rw [← ht]; rfl) (fun i _ => trsv i) toth
      (fun i hi => by rw [tf]; exact hfe i hi) (fun i hi => by rw [tse]; exact hse i hi) ?_ ?_ ?_ ?_ ?_
    · intro q hq; rw [trsv, q7] at hq; cases hq
    · intro _ h2; rw [tsame, hy] at h2; cases h2
    · intro _ _ _; rw [tsame, hy]; simp
    · rw [tf, tsame]; exact c4
    · rw [tse, tsame]; exact c5

theorem shallClean_readOut {l : List POp} (h : shallClean l = true) : ReadOut l := by
  induction l with
  | nil => cases h
  | cons o l ih =>
    have hc : (o = .acquire ∨ o = .acquireUninit ∨ o = .release) → shallClean l = true → ReadOut (o :: l) := by
      intro ho hl
      obtain ⟨u, v, h1, h2⟩ := ih hl
      exact ⟨o :: u, v, by rw [h1]; rfl, fun y hy => by
        rcases List.mem_cons.1 hy with rfl | hy
        · exact ho
        · exact h2 y hy⟩
    cases o with
    | extract => exact ⟨[], l, rfl, nofun⟩
    | acquire => exact hc (by simp) h
    | acquireUninit => exact hc (by simp) h
    | release => exact hc (by simp) h
    | _ => cases h

theorem ReadOut.append {l : List POp} (h : ReadOut l) (r : List POp) : ReadOut (l ++ r) := by
  obtain ⟨u, v, h1, h2⟩ := h
  exact ⟨u, v ++ r, by rw [h1]; simp, h2⟩

theorem callsOf_eq (l : List Elem) (c : Nat) : callsOf l c = opsIn l c := rfl

/-- A block to be kept is not to be cleaned. -/
theorem tidy_clean {x : Elem} {S T : List Elem} (h : Tidy (x :: (S ++ T))) (hx : x.op = .release ∨ x.op = .releaseDirty) {b : Bool} (hk : (opsIn S x.id).any (keepOp b) = true) :
    shallClean (opsIn S x.id) = false := by
  cases hc : shallClean (opsIn S x.id) with
  | false => rfl
  | true =>
    refine absurd ?_ (h [] x (S ++ T) rfl hx ?_)
    · rw [callsOf_eq, opsIn_append]
      obtain ⟨o, h1, h2⟩ := List.any_eq_true.1 hk
      refine ⟨o, List.mem_append_left _ h1, ?_⟩
      cases o <;> simp_all [keepOp]
    · rw [callsOf_eq, opsIn_append]
      exact (shallClean_readOut hc).append _

theorem releaseData_ok (E : Env D) (hE : ∀ l, E.pick l ∉ l) {dflt : D} {a a' : Abs D} {s : St D} {x : Elem} {S : List Elem} {v : Swap.St D} (h : Inv dflt a { S := x :: S } v s)
    (hpr : s.pred = S ++ s.next) (hpl : Rest s) (hst : Stuck s) (hx : touches x.op = false)
    (hcl : (∀ b, (opsIn S x.id).any (keepOp b) = true → shallClean (opsIn S x.id) = false) ∨ Slack.ok D)
    {y : SB} {p pri : Nat} (hyw : ∀ w, s.wsched x.id = some w → y.ext = some w.ext ∧ y.dirty = false ∧ ∀ t : St D, (t.b.blocks x.id).int ≠ none → Stray { S := S, cur := some x } t x.id w)
    (hp : (s.b.blocks x.id).int = some p) (hr : 0 < (s.b.blocks x.id).refs) (hy : y.int = some p) (hy0 : y.refs = 0)
    (hsw : Swap.Inv dflt { v.set x.id y with evict := Swap.insertEvict v.evict pri x.id } a') :
    ∃ s' S' v', releaseData E (s.setBlk x.id y) x.id (opsIn S x.id) = some s' ∧ Mid dflt a' x s' S' v' ∧ Stuck s' := by
  obtain ⟨q1, q2, q3, q4, q5, q6, q7, _⟩ := h.quiet_acquired hr
  have hint : ∀ x', s.next = x' :: s.next.tail → x'.id ≠ x.id := by
    intro x' hx' e
    have := (hst x' _ hx').2.1
    rw [e, hp] at this; cases this
  have hev : ∀ i, i ∈ (Swap.insertEvict v.evict pri x.id).map (·.2) ↔ i ∈ s.freeEv ∨ i ∈ s.schedEv ∨ i = x.id := by
    intro i
    rw [Swap.insert_ids, h.base.vev i]
    simp only [reduceCtorEq, or_false, or_assoc]
  unfold releaseData
  cases hk : shallKeep (s.setBlk x.id y) x.id (opsIn S x.id) with
  | true =>
    simp only [if_true]
    have hkk := shallKeep_true hk
    rw [setBlk_b_same] at hkk
    have h1 := flags_ok (Swap.insertEvict v.evict pri x.id) s.freeEv (insertId s.schedEv x.id) h hp hr hy hsw (fun i => by rw [hev, mem_insertId])
      (fun i h1 h2 => by
        rcases mem_insertId.1 h2 with h2 | rfl
        · exact h.base.disj i h1 h2
        · exact q5 h1)
      (fun i _ h1 => h1) (fun i hi h1 => by
        rcases mem_insertId.1 h1 with h1 | h1
        · exact h1
        · exact absurd h1 hi)
      (fun h1 => absurd h1 q5) (fun _ => hkk.imp id .inl) hyw
    have hst1 : Stuck ({ s.setBlk x.id y with schedEv := insertId s.schedEv x.id } : St D) := by
      intro z l hz
      obtain ⟨j1, j2, j3, j4, j5, j6⟩ := hst z l hz
      have hzn : z.id ≠ x.id := by intro e; rw [e, hp] at j2; cases j2
      refine ⟨j1, ?_, j3, j4, j5, j6⟩
      show ((s.setBlk x.id y).b.blocks z.id).int = none
      rw [setBlk_b_other _ _ hzn]; exact j2
    cases hc : shallClean (opsIn S x.id) with
    | false =>
      simp only [Bool.false_eq_true, if_false]
      exact ⟨_, S, _, rfl, ⟨h1, hpr, hpl⟩, hst1⟩
    | true =>
      simp only [if_true]
      have hD : Slack.ok D := by
        rcases hcl with hcl | hD
        · have := hcl _ hk; rw [hc] at this; cases this
        · exact hD
      have hbx : ({ s.setBlk x.id y with schedEv := insertId s.schedEv x.id } : St D).b.blocks x.id = y := setBlk_b_same _ _ _
      obtain ⟨b, s1, v1, w1, w2, w3⟩ := scheduleWrite_ok E hE h1 (g := x.id) (by rw [hbx, hy]; simp) (by rw [hbx]; exact hy0) (fun _ => .inr ⟨hD, hc⟩)
      have w1' := congrArg (Option.map Prod.snd) w1
      rcases w3 with ⟨rfl, w4, w5, _⟩ | ⟨rfl, _, e, p', _, w4⟩
      · subst w4; subst w5
        exact ⟨_, S, _, w1', ⟨h1, hpr, hpl⟩, hst1⟩
      · have k1 : s1.next = s.next := w4.next
        have k2 : s1.pred = s.pred := w4.pred
        have k3 : s1.b.n = s.b.n := by rw [w4.b]; rfl
        refine ⟨s1, S, v1, w1', ⟨w2, by rw [k1, k2]; exact hpr, by rw [k1, k3]; exact hpl.1, by rw [k2]; exact hpl.2⟩, ?_⟩
        intro z l hz
        rw [k1] at hz
        obtain ⟨j1, j2, j3, j4, j5, j6⟩ := hst1 z l hz
        refine ⟨j1, ?_, by rw [w4.rsv]; exact j3, by rw [w4.b]; exact j4, by rw [w4.b]; exact j5, by rw [w4.freeEv]; exact j6⟩
        have hzn : z.id ≠ x.id := by intro e; rw [e, hbx, hy] at j2; cases j2
        rw [w4.blocks]
        show ((({ s.setBlk x.id y with schedEv := insertId s.schedEv x.id } : St D).setBlk x.id _).b.blocks z.id).int = none
        rw [setBlk_b_other _ _ hzn]; exact j2
  | false =>
    simp only [Bool.false_eq_true, if_false]
    have hkk := not_keep hk
    rw [setBlk_b_same] at hkk
    have hna : ¬ HasAcq S x.id := fun ⟨o, ho, ho2⟩ => by rw [hkk.1 o ho] at ho2; cases ho2
    have h1 := flags_ok (Swap.insertEvict v.evict pri x.id) (insertId s.freeEv x.id) s.schedEv h hp hr hy hsw (fun i => by
        rw [hev, mem_insertId]
        constructor
        · rintro (h1 | h1 | h1)
          · exact .inl (.inl h1)
          · exact .inr h1
          · exact .inl (.inr h1)
        · rintro ((h1 | h1) | h1)
          · exact .inl h1
          · exact .inr (.inr h1)
          · exact .inr (.inl h1))
      (fun i h1 h2 => by
        rcases mem_insertId.1 h1 with h1 | rfl
        · exact h.base.disj i h1 h2
        · exact q6 h2)
      (fun i hi h1 => by
        rcases mem_insertId.1 h1 with h1 | h1
        · exact h1
        · exact absurd h1 hi) (fun i _ h1 => h1)
      (fun _ => ⟨hna, hkk.2⟩) (fun h1 => absurd h1 q6) hyw
    have e1 : (s.setBlk x.id y).freeEv = s.freeEv := rfl
    have e2 : ({ s.setBlk x.id y with freeEv := insertId s.freeEv x.id } : St D).next = s.next := rfl
    rw [e1, e2]
    have hmid : Mid dflt a' x ({ s.setBlk x.id y with freeEv := insertId s.freeEv x.id }) S _ := ⟨h1, hpr, hpl⟩
    by_cases hn : s.next = []
    · rw [if_neg (by simp [hn])]
      have hst' : ∀ t : St D, t.next = [] → Stuck t := fun t ht z l hz => by rw [ht] at hz; cases hz
      by_cases hw : (({ s.setBlk x.id y with freeEv := insertId s.freeEv x.id } : St D).wsched x.id).isSome = true
      · rw [if_pos hw]; exact ⟨_, S, _, rfl, hmid, hst' _ hn⟩
      · rw [if_neg hw]
        have hbx : ({ s.setBlk x.id y with freeEv := insertId s.freeEv x.id } : St D).b.blocks x.id = y := setBlk_b_same _ _ _
        obtain ⟨b, s1, v1, w1, w2, w3⟩ := scheduleWrite_ok E hE h1 (g := x.id) (by rw [hbx, hy]; simp) (by rw [hbx]; exact hy0)
          (fun hd => .inl ⟨hn, fun o ho => by
            rw [hbx] at hd
            cases hz : touches o with
            | false => rfl
            | true =>
              exfalso
              cases o with
              | deinit => exact hkk.2 hd ho
              | acquire => exact hna ⟨_, ho, rfl⟩
              | acquireUninit => exact hna ⟨_, ho, rfl⟩
              | _ => cases hz⟩)
        have w1' := congrArg (Option.map Prod.snd) w1
        rcases w3 with ⟨rfl, w4, w5, _⟩ | ⟨rfl, _, e, p', _, w4⟩
        · subst w4; subst w5
          exact ⟨_, S, _, w1', hmid, hst' _ hn⟩
        · have k1 : s1.next = [] := w4.next.trans hn
          refine ⟨s1, S, v1, w1', ⟨w2, ?_, ?_, ?_⟩, hst' _ k1⟩
          · rw [k1]
            have : s1.pred = s.pred := w4.pred
            rw [this, hpr, hn]
          · rw [k1]; intro z hz; cases hz
          · have : s1.pred = s.pred := w4.pred
            rw [this]; exact hpl.2
    · rw [if_pos hn]
      obtain ⟨z, l, hz⟩ : ∃ z l, s.next = z :: l := by
        cases hc : s.next with
        | nil => exact absurd hc hn
        | cons z l => exact ⟨z, l, rfl⟩
      obtain ⟨j1, j2, j3, j4, j5, j6⟩ := hst z l hz
      exact scheduleNext_ok E hE hmid (fun _ => hx) (fun _ => ⟨j4, j5, fun i hi => by
        have hi : i ∈ insertId s.freeEv x.id := hi
        rw [mem_insertId, j6] at hi
        rcases hi with hi | hi
        · cases hi
        · exact hi⟩)

/-- After a block has given up its internal block. -/
theorem dropped_end (E : Env D) (hE : ∀ l, E.pick l ∉ l) {dflt : D} {a' : Abs D} {s t : St D} {x : Elem} {S : List Elem} {v : Swap.St D} {p : Nat} {keep : Bool} (ht : Dropped s t x.id p keep)
    (h : Inv dflt a' { S := S, cur := some x } v t) (hp : (s.b.blocks x.id).int = some p)
    (hpr : t.pred = S ++ t.next) (hpl : Rest s) (htd : Tame D t.pred) (hst : Stuck s) :
    ∃ s' S' v', (if keep then some t else if t.next ≠ [] then scheduleNext E t else some t) = some s' ∧ Mid dflt a' x s' S' v' ∧ Stuck s' := by
  have hmid : Mid dflt a' x t S v := ⟨h, hpr, by rw [ht.touched.next, ht.n]; exact hpl.1, htd⟩
  cases hk : keep with
  | true =>
    refine ⟨t, S, v, rfl, hmid, ?_⟩
    intro z l hz
    rw [ht.touched.next] at hz
    obtain ⟨j1, j2, j3, j4, j5, j6⟩ := hst z l hz
    have hne : z.id ≠ x.id := by intro e; rw [e, hp] at j2; cases j2
    rw [ht.touched.blocks _ hne, ht.touched.rsv _ hne, ht.free, ht.remaining, hk]
    refine ⟨j1, j2, j3, j4, j5, ?_⟩
    cases hf : t.freeEv with
    | nil => rfl
    | cons g l' =>
      have := (ht.fe g).1 (by rw [hf]; simp)
      rw [j6] at this; cases this.1
  | false =>
    simp only [Bool.false_eq_true, if_false]
    by_cases hn : t.next = []
    · rw [if_neg (by simp [hn])]
      exact ⟨t, S, v, rfl, hmid, fun z l hz => by rw [hn] at hz; cases hz⟩
    · rw [if_pos hn]
      refine scheduleNext_ok E hE hmid (fun hc => absurd rfl ((ht.fe _).1 hc).2) (fun hc => ?_)
      rw [ht.blk] at hc; cases hc

theorem release_ok (E : Env D) (hE : ∀ l, E.pick l ∉ l) {dflt : D} {a : Abs D} {s : St D} {x : Elem} {S : List Elem} {v : Swap.St D}
    (h : SInv dflt a s (x :: S) v) {dirty : Bool} {pr : SB → Nat} (hx : x.op = if dirty then .releaseDirty else .release) (ha : Allowed a (.release x.id dirty pr)) :
    ∃ s' S' v', release E s x.id dirty = some s' ∧ SInv dflt (a.next (.release x.id dirty pr) .unit) s' S' v' := by
  have hxt : touches x.op = false := by rw [hx]; cases dirty <;> rfl
  obtain ⟨s0, b1, b2, b3⟩ := begin_ok h
  have hst0 : Stuck s0 := Stuck.frW (s := { s with pred := S ++ s.next }) h.stuck b3
  have hpl0 : Rest s0 := h.rest0 b3
  have hpr0 : s0.pred = S ++ s0.next := by rw [b3.pred, b3.next]
  have hr : 0 < (s0.b.blocks x.id).refs := by
    have := ha.1; rw [(b2.sw.ok x.id).refs, b2.base.blocks] at this; exact this
  obtain ⟨q1, q2, q3, q4, q5, q6, q7, p, hp⟩ := b2.quiet_acquired hr
  have hbx : v.blocks x.id = s0.b.blocks x.id := by rw [b2.base.blocks]
  have hid : x.id < v.n := (b2.sw.core.att x.id p (by rw [hbx]; exact hp)).1
  have hops := b2.plan.ops x.id
  simp only [curOps, List.nil_append, opsIn_cons_self] at hops
  obtain ⟨m, hm⟩ : ∃ m, s0.sched x.id = some m := by
    cases hz : s0.sched x.id with
    | none => simp [opsOf, hz] at hops
    | some m => exact ⟨m, rfl⟩
  rw [opsOf_of hm] at hops
  have hac : (s0.b.blocks x.id).isAcquired = true := by simp [SB.isAcquired, hr]
  suffices hg : ∃ s' S' v', (if ({ s0.b.blocks x.id with dirty := dirty || (s0.b.blocks x.id).dirty, refs := (s0.b.blocks x.id).refs - 1 } : SB).isAcquired then
        some (s0.setBlk x.id { s0.b.blocks x.id with dirty := dirty || (s0.b.blocks x.id).dirty, refs := (s0.b.blocks x.id).refs - 1 })
      else if ({ s0.b.blocks x.id with dirty := dirty || (s0.b.blocks x.id).dirty, refs := (s0.b.blocks x.id).refs - 1 } : SB).dirty || ({ s0.b.blocks x.id with dirty := dirty || (s0.b.blocks x.id).dirty, refs := (s0.b.blocks x.id).refs - 1 } : SB).isExternal then
        releaseData E (s0.setBlk x.id { s0.b.blocks x.id with dirty := dirty || (s0.b.blocks x.id).dirty, refs := (s0.b.blocks x.id).refs - 1 }) x.id (opsIn S x.id)
      else releaseNoData E (s0.setBlk x.id { s0.b.blocks x.id with dirty := dirty || (s0.b.blocks x.id).dirty, refs := (s0.b.blocks x.id).refs - 1 }) x.id (opsIn S x.id)) = some s' ∧
      Mid dflt (a.next (.release x.id dirty pr) .unit) x s' S' v' ∧ Stuck s' by
    obtain ⟨s1, S', v', g1, g2, g3⟩ := hg
    obtain ⟨s', g4, g5⟩ := done_ok g2 g3
    refine ⟨s', S', v', ?_, g5⟩
    unfold release
    rw [← hx, b1, Option.bind_some, hm]
    simp only [St.blk, hac, if_true, hops, List.tail_cons]
    rw [g1, Option.bind_some, g4]
  obtain ⟨r, v1, g1, g2, g3⟩ := Swap.release_good E hE b2.sw x.id dirty pr hid ha
  simp only [Swap.step, Swap.releaseWith, Nat.not_le.2 hid, if_false, hbx, hac, if_true] at g1
  generalize hyd : ({ s0.b.blocks x.id with dirty := dirty || (s0.b.blocks x.id).dirty, refs := (s0.b.blocks x.id).refs - 1 } : SB) = y at g1 ⊢
  have hyi : y.int = some p := by rw [← hyd]; exact hp
  have hyD : (dirty || (s0.b.blocks x.id).dirty) = y.dirty := by rw [← hyd]
  rw [hyD] at g1
  have hyw : ∀ w, s0.wsched x.id = some w → y.ext = some w.ext ∧ y.dirty = false ∧ ∀ t : St D, (t.b.blocks x.id).int ≠ none → Stray { S := S, cur := some x } t x.id w := by
    intro w hw
    obtain ⟨a1, a2, st⟩ := q4 w hw
    cases dirty with
    | true =>
      exfalso
      rcases st.2.2.2.2 with st | ⟨st, _⟩
      · cases st
      · have st : shallClean (opsIn (x :: S) x.id) = true := st
        rw [opsIn_cons_self, hx] at st; cases st
    | false =>
      refine ⟨by rw [← hyd]; exact a1, by rw [← hyD, a2]; rfl, fun t ht => st.next rfl rfl rfl (fun hc => hc) (fun l hl => ?_) ht⟩
      rw [hx] at hl; exact hl
  cases hya : y.isAcquired with
  | true =>
    rw [hya] at g1
    simp only [if_true, Option.map_some, Option.some.injEq, Prod.mk.injEq] at g1 ⊢
    obtain ⟨rfl, rfl⟩ := g1
    have h1 := flags_ok (a' := a.next (.release x.id dirty pr) .unit) v.evict s0.freeEv s0.schedEv b2 hp hr hyi g3 (fun i => by rw [b2.base.vev i]; simp) b2.base.disj (fun _ _ h => h) (fun _ _ h => h)
      (fun h1 => absurd h1 q5) (fun h1 => absurd h1 q6) hyw
    refine ⟨_, S, _, rfl, ⟨h1, hpr0, hpl0⟩, ?_⟩
    intro z l hz
    obtain ⟨j1, j2, j3, j4, j5, j6⟩ := hst0 z l hz
    have hzn : z.id ≠ x.id := by intro e; rw [e, hp] at j2; cases j2
    refine ⟨j1, ?_, j3, j4, j5, j6⟩
    rw [setBlk_b_other _ _ hzn]; exact j2
  | false =>
    rw [hya] at g1
    have hy0 : y.refs = 0 := by simp only [SB.isAcquired, decide_eq_false_iff_not] at hya; omega
    simp only [Bool.false_eq_true, if_false] at g1 ⊢
    cases hyx : (y.dirty || y.isExternal) with
    | true =>
      rw [hyx] at g1
      simp only [if_true, Option.map_some, Option.some.injEq, Prod.mk.injEq] at g1 ⊢
      obtain ⟨rfl, rfl⟩ := g1
      exact releaseData_ok E hE b2 hpr0 hpl0 hst0 hxt (h.plain.2.imp (fun htd b hk => tidy_clean (T := s.next) (by rw [h.pred] at htd; exact htd) (by rw [hx]; cases dirty <;> simp) hk) id) hyw hp hr hyi hy0 g3
    | false =>
      rw [hyx] at g1
      simp only [Bool.false_eq_true, if_false] at g1 ⊢
      simp only [Bool.or_eq_false_iff] at hyx
      have hye : y.ext = none := by
        have := hyx.2
        simp only [SB.isExternal, hyx.1, Bool.not_false, Bool.and_true] at this
        cases hz : y.ext with
        | none => rfl
        | some e => rw [hz] at this; cases this
      have q4 : s0.wsched x.id = none := by
        cases hz : s0.wsched x.id with
        | none => rfl
        | some w => have := (hyw w hz).1; rw [hye] at this; cases this
      have hy : ({ y with int := none } : SB) = {} := by
        cases y; simp only at hye hy0 hyx; simp [hye, hy0, hyx.1]
      -- the other algorithms
      have hdv : Swap.detach E (v.set x.id y) x.id = some (p, (v.set x.id y).set x.id {}) := by
        simp only [Swap.detach, SB.isEvictable, Swap.set_same, hya, SB.isInternal, hyi, Option.isSome_some, Bool.not_false, Bool.and_self, if_true, Swap.clean, hyx.1, Bool.false_eq_true, if_false, Option.bind_some]
        rw [hye, hy0]
      rw [hdv] at g1
      simp only [Option.map_some, Option.some.injEq, Prod.mk.injEq] at g1
      obtain ⟨rfl, rfl⟩ := g1
      have hds : detach E (s0.setBlk x.id y) x.id = some (p, (s0.setBlk x.id y).setBlk x.id {}) := by
        have := detach_clean E (s := s0.setBlk x.id y) (c := x.id) (p := p) (by rw [setBlk_b_same]; exact hyi) (by rw [setBlk_b_same]; exact hy0) (by rw [setBlk_b_same]; exact hyx.1)
        rw [this, setBlk_b_same, hy]
      have hkk : ∀ k, shallKeep (s0.setBlk x.id y) x.id (opsIn S x.id) = k → (k = true ↔ HasAcq S x.id) := by
        rintro k rfl
        constructor
        · intro hk
          rcases shallKeep_true hk with ⟨o, h1, h2⟩ | ⟨h1, _⟩
          · exact ⟨o, h1, h2⟩
          · rw [setBlk_b_same, hyx.1] at h1; cases h1
        · rintro ⟨o, h1, h2⟩
          cases hk : shallKeep (s0.setBlk x.id y) x.id (opsIn S x.id) with
          | true => rfl
          | false => rw [(not_keep hk).1 o h1] at h2; cases h2
      have hsetset : ∀ i, (((s0.setBlk x.id y).setBlk x.id {}).b.blocks i) = if i = x.id then {} else s0.b.blocks i := by
        intro i
        by_cases e : i = x.id
        · subst e; rw [setBlk_b_same, if_pos rfl]
        · rw [setBlk_b_other _ _ e, setBlk_b_other _ _ e, if_neg e]
      have hvset : ((v.set x.id y).set x.id {}).blocks = (v.set x.id {}).blocks := by
        funext i
        by_cases e : i = x.id
        · subst e; rw [Swap.set_same, Swap.set_same]
        · rw [Swap.set_other _ _ e, Swap.set_other _ _ e, Swap.set_other _ _ e]
      have hevx : ∀ i, i ∈ v.evict.map (·.2) ↔ i ∈ v.evict.map (·.2) ∧ i ≠ x.id := by
        intro i
        refine ⟨fun h1 => ⟨h1, ?_⟩, fun h1 => h1.1⟩
        rintro rfl
        have := ((b2.sw.ev.mem _).1 h1).2
        rw [hbx] at this; omega
      unfold releaseNoData
      rw [hds, Option.bind_some]
      cases hk : shallKeep (s0.setBlk x.id y) x.id (opsIn S x.id) with
      | true =>
        simp only [if_true]
        have e1 : ((s0.setBlk x.id y).setBlk x.id {}).sched x.id = some m := hm
        rw [e1]
        have hD : Dropped s0 (((s0.setBlk x.id y).setBlk x.id {}).setMeta x.id (some { m with reserved := some p })) x.id p true := by
          refine ⟨⟨rfl, rfl, rfl, rfl, fun i => ?_, fun i => ?_, fun i hi => ?_, fun i hi => ?_, rfl⟩, ?_, rfl, rfl, rfl, rfl, rfl, rfl, rfl, ?_, fun i => ?_, fun i m' hm' => ?_, fun i => ⟨fun h1 => ⟨h1, by rintro rfl; exact q5 h1⟩, fun h1 => h1.1⟩,
            fun i => ⟨fun h1 => ⟨h1, by rintro rfl; exact q6 h1⟩, fun h1 => h1.1⟩⟩
          · rw [gvr_setMeta]; split
            · rename_i e; subst e; rw [gvr_of hm]
            · rfl
          · rw [rrq_setMeta]; split
            · rename_i e; subst e; rw [rrq_of hm]
            · rfl
          · rw [rsv_setMeta, if_neg hi]; rfl
          · exact (hsetset i).trans (if_neg hi)
          · exact (hsetset _).trans (if_pos rfl)
          · rw [rsv_setMeta, if_pos rfl]; rfl
          · rw [opsOf_setMeta]; split
            · rename_i e; subst e; rw [opsOf_of hm]
            · rfl
          · by_cases e : i = x.id
            · subst e; rw [setMeta_same] at hm'; cases hm'; exact ⟨m, hm, rfl⟩
            · rw [setMeta_other _ _ e] at hm'; exact ⟨m', hm', rfl⟩
        have hI := drop_ok b2 hD hp q1 q2 q4 q3 (hkk true hk) g3 hvset rfl rfl rfl rfl rfl rfl rfl rfl hevx
        exact dropped_end E hE hD hI hp hpr0 hpl0 hpl0.2 hst0
      | false =>
        simp only [Bool.false_eq_true, if_false]
        have hD : Dropped s0 { (s0.setBlk x.id y).setBlk x.id {} with b := Swap.giveBack ((s0.setBlk x.id y).setBlk x.id {}).b p } x.id p false := by
          refine ⟨⟨rfl, rfl, rfl, rfl, fun i => rfl, fun i => rfl, fun i hi => rfl, fun i hi => ?_, rfl⟩, ?_, rfl, rfl, rfl, rfl, rfl, rfl, rfl, ?_, fun i => rfl, fun i m' hm' => ⟨m', hm', rfl⟩, fun i => ⟨fun h1 => ⟨h1, by rintro rfl; exact q5 h1⟩, fun h1 => h1.1⟩,
            fun i => ⟨fun h1 => ⟨h1, by rintro rfl; exact q6 h1⟩, fun h1 => h1.1⟩⟩
          · exact (hsetset i).trans (if_neg hi)
          · exact (hsetset _).trans (if_pos rfl)
          · exact q7
        have hI := drop_ok b2 hD hp q1 q2 q4 q3 (hkk false hk) g3 hvset rfl rfl rfl rfl rfl rfl rfl rfl hevx
        exact dropped_end E hE hD hI hp hpr0 hpl0 hpl0.2 hst0

end Foxxll.Ahead
