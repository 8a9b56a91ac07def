import Verif.Proofs.AheadInit

set_option linter.unusedSimpArgs false
set_option linter.unusedVariables false
set_option linter.unusedSectionVars false

/-
offline_lru_prefetching: the call `extract_external_block`.
-/
namespace Foxxll.Ahead
open Foxxll.Swap (SB Env POp Elem Op Res Abs Allowed Expected)

variable {D : Type} [Slack D]

/-- `operation_done` does not depend on the blocks. -/
theorem opDone_b (s : St D) (b : Swap.St D) (c : Nat) : opDone { s with b := b } c = (opDone s c).map fun t => { t with b := b } := by
  unfold opDone
  show (match s.sched c with | none => none | some m => _) = _
  cases hm : s.sched c with
  | none => rfl
  | some m =>
    simp only
    split
    · rfl
    · split <;> rfl
    · rfl

theorem extract_ok (E : Env D) (hE : ∀ l, E.pick l ∉ l) {dflt : D} {a : Abs D} {s : St D} {x : Elem} {S : List Elem} {v : Swap.St D}
    (h : SInv dflt a s (x :: S) v) (hx : x.op = .extract) (ha : a.refs x.id = 0) :
    ((s.b.blocks x.id).isInternal = true → extract s x.id = none) ∧
    ((s.b.blocks x.id).isInternal = false → ∃ r s' v', extract s x.id = some (r, s') ∧ SInv dflt (a.next (.extract x.id) (.ext r)) s' S v' ∧ Expected dflt a (.extract x.id) (.ext r)) := by
  obtain ⟨s0, b1, b2, b3⟩ := begin_ok h
  have hst0 : Stuck s0 := Stuck.frW (s := { s with pred := S ++ s.next }) h.stuck b3
  have hpl0 : Rest s0 := h.rest0 b3
  have hpr0 : s0.pred = S ++ s0.next := by rw [b3.pred, b3.next]
  obtain ⟨s1, w1, w2, w3, w4, _, _, _⟩ := waitWrite_ok b2 x.id
  have hst1 : Stuck s1 := Stuck.frW hst0 w3.frW
  have hbl : s1.b.blocks = s.b.blocks := by rw [w3.b, b3.b]
  have hn1 : s1.b.n = s0.b.n := by rw [w3.b]
  have hpl1 : Rest s1 := ⟨by rw [w3.next, hn1]; exact hpl0.1, by rw [w3.pred]; exact hpl0.2⟩
  have hpr1 : s1.pred = S ++ s1.next := by rw [w3.pred, w3.next]; exact hpr0
  have hops := w2.plan.ops x.id
  simp only [curOps, List.nil_append, opsIn_cons_self] at hops
  have hid : x.id < v.n := by rw [w2.base.n]; exact w2.plan.ids x (by simp)
  refine ⟨fun hi => ?_, fun hi => ?_⟩
  · unfold extract
    rw [← hx, b1, Option.bind_some, w1, Option.bind_some]
    cases hd : opDone s1 x.id with
    | none => rfl
    | some t =>
      have hb : t.b = s1.b := by
        have := opDone_b s1 s1.b x.id
        rw [show ({ s1 with b := s1.b } : St D) = s1 from rfl, hd] at this
        simp only [Option.map_some, Option.some.injEq] at this
        rw [this]
      rw [Option.bind_some, if_pos]
      rw [St.blk, hb, hbl]; exact hi
  · have hbx : v.blocks x.id = s1.b.blocks x.id := by rw [w2.base.blocks]
    have hbi : (s1.b.blocks x.id).isInternal = false := by rw [hbl]; exact hi
    have hint : (s1.b.blocks x.id).int = none := by
      cases hz : (s1.b.blocks x.id).int with
      | none => rfl
      | some p => simp [SB.isInternal, hz] at hbi
    have hdir : (s1.b.blocks x.id).dirty = false := by
      cases hz : (s1.b.blocks x.id).dirty with
      | false => rfl
      | true => exact absurd hint (by rw [← hbx]; exact w2.sw.core.dirtyInt x.id (by rw [hbx]; exact hz))
    have hr : (s1.b.blocks x.id).refs = 0 := by rw [← hbx, ← (w2.sw.ok x.id).refs]; exact ha
    have hnf : ¬ First (x :: S) x.id := by unfold First; rw [opsIn_cons_self, hx]; simp
    have q3 : rrq s1 x.id = none := by
      cases hz : rrq s1 x.id with
      | none => rfl
      | some r => exact absurd (w2.io.rrqOk _ r hz).2.2.2.2.1 hnf
    have q5 : ∀ i, (i ∈ s1.freeEv ∨ i ∈ s1.schedEv ∨ (none : Option Nat) = some i) → i ≠ x.id := by
      rintro i h1 rfl
      obtain ⟨⟨p, hp⟩, _⟩ := w2.ev_facts h1
      rw [hint] at hp; cases hp
    obtain ⟨r, v1, g1, g2, g3⟩ := Swap.extract_good E hE w2.sw x.id hid ha
    have hev : (v.blocks x.id).isEvictable = false := by rw [hbx]; simp [SB.isEvictable, hbi]
    have hvi : (v.blocks x.id).isInternal = false := by rw [hbx]; exact hbi
    simp only [Swap.step, Swap.extract, Swap.putOut, Nat.not_le.2 hid, if_false, hev, hvi, Bool.false_eq_true, Option.map_some, Option.some.injEq, Prod.mk.injEq] at g1
    obtain ⟨rfl, rfl⟩ := g1
    rw [hbx] at g2 g3
    generalize hb : ({ (s1.b.set x.id { s1.b.blocks x.id with ext := none }) with held := (s1.b.blocks x.id).ext.toList ++ s1.b.held } : Swap.St D) = b
    have tsame : b.blocks x.id = { s1.b.blocks x.id with ext := none } := by rw [← hb]; exact Swap.set_same _ _ _
    have toth : ∀ i, i ≠ x.id → b.blocks i = s1.b.blocks i := fun i hi => by rw [← hb]; exact Swap.set_other _ _ hi
    have hI : Inv dflt (a.next (.extract x.id) (.ext (s1.b.blocks x.id).ext)) { S := S, cur := some x }
        { (v.set x.id { s1.b.blocks x.id with ext := none }) with held := (s1.b.blocks x.id).ext.toList ++ v.held } { s1 with b := b } := by
      refine touch_ok (c := x.id) w2 ⟨rfl, rfl, rfl, rfl, fun i => rfl, fun i => rfl, fun i _ => rfl, toth, by rw [← hb]; rfl⟩ q3 (fun w hz => by rw [w4] at hz; cases hz) rfl
        (fun d _ => ⟨by show (b.blocks x.id).dirty = false; rw [tsame]; exact hdir, by show (b.blocks x.id).refs = 0; rw [tsame]; exact hr, fun hb => hb.tail fun _ => by rw [hx]; rfl⟩) (fun i hc => hc) (fun i hc => hc)
        (fun g hg => ⟨rfl, hint, by show (b.blocks x.id).int = none; rw [tsame]; exact hint, fun hb => hb.tail fun _ => by rw [hx]; rfl⟩) (fun i hi => opsIn_tail hi) bef_next g3 ?_ ?_ rfl (fun p => .inl ⟨rfl, by rw [← hb]; rfl⟩)
      · refine ⟨?_, by rw [← hb]; exact w2.base.n, by rw [← hb]; show _ ++ v.held = _ ++ s1.b.held; rw [w2.base.held], by rw [← hb]; exact w2.base.next, by rw [← hb]; exact w2.base.remaining, by rw [← hb]; exact w2.base.max,
          fun q => ?_, by rw [← hb]; exact w2.base.freeNd, fun i q => ?_, w2.base.rsvInj, w2.base.vev, w2.base.disj⟩
        · funext i
          show (v.set x.id _).blocks i = b.blocks i
          by_cases e : i = x.id
          · subst e; rw [Swap.set_same, tsame]
          · rw [Swap.set_other _ _ e, toth i e, w2.base.blocks]
        · rw [← hb]; exact w2.base.vfree q
        · rw [← hb]; exact w2.base.rsvFree i q
      · refine plan_next w2.plan rfl rfl rfl (.inl rfl) (fun i => rfl) w2.plan.opsNe (by rw [← hb]; rfl) (fun i _ => rfl) toth (fun i _ h1 => h1) (fun i _ h1 => h1) ?_ ?_ ?_ ?_ ?_
        · intro p hp
          refine ⟨by show (b.blocks x.id).int = none; rw [tsame]; exact hint, ?_⟩
          obtain ⟨o, k1, k2⟩ := (w2.plan.rsvAcq x.id p hp).2
          rw [show opsIn ({ S := x :: S } : Ctx).S x.id = x.op :: opsIn S x.id from opsIn_cons_self x S] at k1
          rcases List.mem_cons.1 k1 with k1 | k1
          · rw [k1, hx] at k2; cases k2
          · exact ⟨o, k1, k2⟩
        · intro ⟨o, k1, k2⟩ _ _
          refine w2.plan.acqRsv x.id ⟨o, ?_, k2⟩ hint (by simp)
          show o ∈ opsIn (x :: S) x.id
          rw [opsIn_cons_self]; exact List.mem_cons_of_mem _ k1
        · intro _ h1
          have h1 : (b.blocks x.id).isInitialized = true := h1
          rw [tsame] at h1
          simp [SB.isInitialized, SB.isExternal, SB.isInternal, hdir, hint] at h1
        · intro h1; exact absurd rfl (q5 _ (.inl h1))
        · intro h1; exact absurd rfl (q5 _ (.inr (.inl h1)))
    have hmid : Mid dflt (a.next (.extract x.id) (.ext (s1.b.blocks x.id).ext)) x { s1 with b := b } S _ :=
      ⟨hI, hpr1, by show ∀ y ∈ s1.next, y.id < b.n; rw [← hb]; exact hpl1.1, hpl1.2⟩
    have hst2 : Stuck ({ s1 with b := b } : St D) := by
      intro z l hz
      obtain ⟨j1, j2, j3, j4, j5, j6⟩ := hst1 z l hz
      refine ⟨j1, ?_, j3, by rw [← hb]; exact j4, by rw [← hb]; exact j5, j6⟩
      show (b.blocks z.id).int = none
      by_cases e : z.id = x.id
      · rw [e, tsame]; exact hint
      · rw [toth _ e]; exact j2
    obtain ⟨s', k1, k2⟩ := done_ok hmid hst2
    refine ⟨(s1.b.blocks x.id).ext, s', _, ?_, k2, g2⟩
    rw [opDone_b] at k1
    unfold extract
    rw [← hx, b1, Option.bind_some, w1, Option.bind_some]
    cases hd : opDone s1 x.id with
    | none => rw [hd] at k1; cases k1
    | some t =>
      have hbt : t.b = s1.b := by
        have := opDone_b s1 s1.b x.id
        rw [show ({ s1 with b := s1.b } : St D) = s1 from rfl, hd] at this
        simp only [Option.map_some, Option.some.injEq] at this
        rw [this]
      rw [hd] at k1
      simp only [Option.map_some, Option.some.injEq] at k1
      rw [Option.bind_some, if_neg (by rw [St.blk, hbt, hbi]; simp)]
      simp only [St.blk, hbt, hb, k1]

end Foxxll.Ahead
