import Verif.Proofs.AheadRelease

set_option linter.unusedSimpArgs false
set_option linter.unusedVariables false
set_option linter.unusedSectionVars false

/-
offline_lru_prefetching: the call `deinitialize`.
-/
namespace Foxxll.Ahead
open Foxxll.Swap (SB Env POp Elem Op Res Abs Allowed Expected)

variable {D : Type} [Slack D]

theorem unlist_ok {dflt : D} {a : Abs D} {S : List Elem} {v : Swap.St D} {s : St D} (h : Inv dflt a { S := S } v s) {c : Nat} (hr : (s.b.blocks c).refs = 0)
    (hcl : shallClean (opsIn S c) ≠ true) :
    ∃ fe se, unlistBlock s c (opsIn S c) = some { s with freeEv := fe, schedEv := se } ∧ (∀ i, i ∈ fe ↔ i ∈ s.freeEv ∧ i ≠ c) ∧ (∀ i, i ∈ se ↔ i ∈ s.schedEv ∧ i ≠ c) := by
  unfold unlistBlock
  cases hi : (s.b.blocks c).int with
  | none =>
    have e1 : (s.blk c).isEvictable = false := by simp [St.blk, SB.isEvictable, SB.isInternal, hi]
    have hn : ∀ i, (i ∈ s.freeEv ∨ i ∈ s.schedEv ∨ (none : Option Nat) = some i) → i ≠ c := by
      rintro i h1 rfl
      obtain ⟨⟨p, hp⟩, _⟩ := h.ev_facts h1
      rw [hi] at hp; cases hp
    rw [e1]
    exact ⟨s.freeEv, s.schedEv, rfl, fun i => ⟨fun h1 => ⟨h1, hn i (.inl h1)⟩, fun h1 => h1.1⟩, fun i => ⟨fun h1 => ⟨h1, hn i (.inr (.inl h1))⟩, fun h1 => h1.1⟩⟩
  | some p =>
    have e1 : (s.blk c).isEvictable = true := by simp [St.blk, SB.isEvictable, SB.isInternal, SB.isAcquired, hi, hr]
    rw [e1]
    simp only [if_true]
    have hF : ∀ i, i ∈ s.schedEv → c ∈ s.freeEv → i ≠ c := by rintro i h1 h2 rfl; exact h.base.disj i h2 h1
    have hG : ∀ i, i ∈ s.freeEv → c ∈ s.schedEv → i ≠ c := by rintro i h1 h2 rfl; exact h.base.disj i h1 h2
    have hfree : c ∈ s.freeEv → ∃ fe se, (if c ∈ s.freeEv then some { s with freeEv := eraseId s.freeEv c } else none) = some { s with freeEv := fe, schedEv := se } ∧
        (∀ i, i ∈ fe ↔ i ∈ s.freeEv ∧ i ≠ c) ∧ (∀ i, i ∈ se ↔ i ∈ s.schedEv ∧ i ≠ c) := by
      intro hc
      rw [if_pos hc]
      exact ⟨eraseId s.freeEv c, s.schedEv, rfl, fun i => mem_eraseId, fun i => ⟨fun h1 => ⟨h1, hF i h1 hc⟩, fun h1 => h1.1⟩⟩
    have hin := h.ev_of (g := c) (by rw [hi]; simp) hr
    cases hk : shallKeep s c (opsIn S c) with
    | true =>
      simp only [if_true]
      by_cases hs : c ∈ s.schedEv
      · rw [if_pos hs]
        exact ⟨s.freeEv, eraseId s.schedEv c, rfl, fun i => ⟨fun h1 => ⟨h1, hG i h1 hs⟩, fun h1 => h1.1⟩, fun i => mem_eraseId⟩
      · rw [if_neg hs]
        rcases hin with h1 | h1 | h1
        · exact hfree h1
        · exact absurd h1 hs
        · cases h1
    | false =>
      simp only [Bool.false_eq_true, if_false]
      rcases hin with h1 | h1 | h1
      · exact hfree h1
      · exfalso
        have hnk := not_keep hk
        rcases h.plan.evS c h1 with ⟨o, h2, h3⟩ | ⟨h2, h3⟩ | h2
        · rw [hnk.1 o h2] at h3; cases h3
        · exact hnk.2 h2 h3
        · exact hcl h2
      · cases h1

/-- A block deinitialized next is no giver, and is not transferred. -/
theorem Inv.quiet_deinit {dflt : D} {a : Abs D} {v : Swap.St D} {s : St D} {x : Elem} {S : List Elem} (h : Inv dflt a { S := x :: S } v s) (hx : x.op = .deinit) :
    (∀ d, gvr s d ≠ some x.id) ∧ s.wsched x.id = none ∧ rrq s x.id = none ∧ (∀ g, gvr s x.id = some g → (s.b.blocks x.id).int = none) := by
  have h1 : ∀ d, gvr s d ≠ some x.id := by
    intro d hd
    obtain ⟨U, y, V, k1, k2, k3, k4⟩ := (h.io.gvrOk d x.id hd).1
    cases U with
    | nil =>
      simp only [List.nil_append, List.cons.injEq] at k1
      rw [← k1.1, hx] at k3; cases k3
    | cons z U =>
      simp only [List.cons_append, List.cons.injEq] at k1
      have := k4 x (by rw [k1.1]; simp) rfl
      rw [hx] at this; cases this
  have hnf : ¬ First (x :: S) x.id := by
    unfold First; rw [opsIn_cons_self, hx]; simp
  refine ⟨h1, ?_, ?_, fun g hg => ?_⟩
  · cases hw : s.wsched x.id with
    | none => rfl
    | some w =>
      exfalso
      rcases (h.io.wOk x.id w hw).2.2 with ⟨_, ⟨b1, b2, b3, b4 | b4⟩ | ⟨m, b1, b2, b3, _⟩⟩ | st
      · have := b4.2.2 x.op (by show x.op ∈ opsIn (x :: S) x.id; rw [opsIn_cons_self]; simp)
        rw [hx] at this; cases this
      · exact h1 _ b4.2
      · exact h1 _ b3
      · rcases st.2.2.2.2 with st | ⟨st, _⟩
        · cases st
        · have st : shallClean (opsIn (x :: S) x.id) = true := st
          rw [opsIn_cons_self, hx] at st; cases st
  · cases hz : rrq s x.id with
    | none => rfl
    | some r => exact absurd (h.io.rrqOk _ r hz).2.2.2.2.1 hnf
  · rcases (h.io.gvrOk _ g hg).2.2.2 with h2 | h2
    · cases hz : rsv s x.id with
      | none => exact absurd hz h2
      | some q => exact (h.plan.rsvAcq _ q hz).1
    · exact absurd h2.2.2 hnf

theorem deinit_ok (E : Env D) (hE : ∀ l, E.pick l ∉ l) {dflt : D} {a : Abs D} {s : St D} {x : Elem} {S : List Elem} {v : Swap.St D}
    (h : SInv dflt a s (x :: S) v) (hx : x.op = .deinit) (ha : a.refs x.id = 0) :
    ∃ s' S' v', deinit E s x.id = some s' ∧ SInv dflt { a with data := Swap.upd a.data x.id none } s' S' v' := by
  obtain ⟨s0, b1, b2, b3⟩ := begin_ok h
  have hst0 : Stuck s0 := Stuck.frW (s := { s with pred := S ++ s.next }) h.stuck b3
  have hpl0 : Rest s0 := h.rest0 b3
  have hpr0 : s0.pred = S ++ s0.next := by rw [b3.pred, b3.next]
  have hbx : v.blocks x.id = s0.b.blocks x.id := by rw [b2.base.blocks]
  have hr : (s0.b.blocks x.id).refs = 0 := by rw [← hbx, ← (b2.sw.ok x.id).refs]; exact ha
  have hid : x.id < v.n := by rw [b2.base.n]; exact (b2.plan.ids x (by simp))
  obtain ⟨q1, q2, q3, q4⟩ := b2.quiet_deinit hx
  have hops := b2.plan.ops x.id
  simp only [curOps, List.nil_append, opsIn_cons_self] at hops
  obtain ⟨m, hm⟩ : ∃ m, s0.sched x.id = some m := by
    cases hz : s0.sched x.id with
    | none => simp [opsOf, hz] at hops
    | some m => exact ⟨m, rfl⟩
  rw [opsOf_of hm] at hops
  obtain ⟨fe, se, u1, u2, u3⟩ := unlist_ok b2 hr (by rw [opsIn_cons_self, hx]; simp [shallClean])
  rw [show opsIn (x :: S) x.id = m.ops by rw [hops, opsIn_cons_self]] at u1
  have htl : m.ops.tail = opsIn S x.id := by rw [hops]; rfl
  have hna : (s0.b.blocks x.id).isAcquired = false := by simp [SB.isAcquired, hr]
  suffices hg : ∃ s' S' v', (match (s0.b.blocks x.id).int with
        | none => some (({ s0 with freeEv := fe, schedEv := se } : St D).setBlk x.id {})
        | some p =>
          if shallKeep (({ s0 with freeEv := fe, schedEv := se } : St D).setBlk x.id {}) x.id (opsIn S x.id) then some ((({ s0 with freeEv := fe, schedEv := se } : St D).setBlk x.id {}).setMeta x.id (some { m with reserved := some p }))
          else if s0.next ≠ [] then scheduleNext E { (({ s0 with freeEv := fe, schedEv := se } : St D).setBlk x.id {}) with b := Swap.giveBack (({ s0 with freeEv := fe, schedEv := se } : St D).setBlk x.id {}).b p }
            else some { (({ s0 with freeEv := fe, schedEv := se } : St D).setBlk x.id {}) with b := Swap.giveBack (({ s0 with freeEv := fe, schedEv := se } : St D).setBlk x.id {}).b p }) = some s' ∧
      Mid dflt { a with data := Swap.upd a.data x.id none } x s' S' v' ∧ Stuck s' by
    obtain ⟨s1, S', v', g1, g2, g3⟩ := hg
    obtain ⟨s', g4, g5⟩ := done_ok g2 g3
    refine ⟨s', S', v', ?_, g5⟩
    unfold deinit
    rw [← hx, b1, Option.bind_some, hm]
    simp only [u1, Option.bind_some, St.blk, hna, Bool.false_eq_true, if_false, htl]
    refine Eq.trans ?_ g4
    have hb : ∀ (o : Option (St D)), o = some s1 → (o.bind fun s4 => opDone s4 x.id) = opDone s1 x.id := by rintro o rfl; rfl
    exact hb _ g1
  obtain ⟨v1, g1, g2⟩ := Swap.deinit_inv E b2.sw x.id hid ha
  simp only [Swap.deinit, Nat.not_le.2 hid, if_false, hbx, hna, Bool.false_eq_true] at g1
  have tsame : (({ s0 with freeEv := fe, schedEv := se } : St D).setBlk x.id {}).b.blocks x.id = {} := setBlk_b_same _ _ _
  have toth : ∀ i, i ≠ x.id → (({ s0 with freeEv := fe, schedEv := se } : St D).setBlk x.id {}).b.blocks i = s0.b.blocks i := fun i hi => setBlk_b_other _ _ hi
  cases hi : (s0.b.blocks x.id).int with
  | none =>
    rw [hi] at g1
    have e1 : (s0.b.blocks x.id).isEvictable = false := by simp [SB.isEvictable, SB.isInternal, hi]
    rw [e1] at g1
    simp only [Bool.false_eq_true, if_false, Option.some.injEq] at g1
    simp only
    subst g1
    have hI : Inv dflt { a with data := Swap.upd a.data x.id none } { S := S, cur := some x } (v.set x.id {}) (({ s0 with freeEv := fe, schedEv := se } : St D).setBlk x.id {}) := by
      refine touch_ok (c := x.id) b2 ⟨rfl, rfl, rfl, rfl, fun i => rfl, fun i => rfl, fun i _ => rfl, toth, rfl⟩ q3 (fun w hz => by rw [q2] at hz; cases hz) rfl (fun d hd => absurd hd (q1 d)) (fun i hc => hc) (fun i hc => hc)
        (fun g hg => ⟨rfl, hi, by rw [tsame], fun hb => hb.tail fun _ => by rw [hx]; rfl⟩) (fun i hi => opsIn_tail hi) bef_next g2 ?_ ?_ rfl (fun p => .inl ⟨rfl, rfl⟩)
      · refine ⟨?_, b2.base.n, b2.base.held, b2.base.next, b2.base.remaining, b2.base.max, b2.base.vfree, b2.base.freeNd, b2.base.rsvFree, b2.base.rsvInj, fun i => ?_, fun i h1 h2 => ?_⟩
        · funext i
          by_cases e : i = x.id
          · subst e; rw [Swap.set_same, tsame]
          · rw [Swap.set_other _ _ e, toth i e, b2.base.blocks]
        · show i ∈ v.evict.map (·.2) ↔ i ∈ fe ∨ i ∈ se ∨ none = some i
          rw [b2.base.vev i, u2, u3]
          have hn : (i ∈ s0.freeEv ∨ i ∈ s0.schedEv ∨ (none : Option Nat) = some i) → i ≠ x.id := by
            rintro h1 rfl
            obtain ⟨⟨p, hp⟩, _⟩ := b2.ev_facts h1
            rw [hi] at hp; cases hp
          constructor
          · intro h1
            have := hn h1
            rcases h1 with h1 | h1 | h1
            · exact .inl ⟨h1, this⟩
            · exact .inr (.inl ⟨h1, this⟩)
            · cases h1
          · rintro (h1 | h1 | h1)
            · exact .inl h1.1
            · exact .inr (.inl h1.1)
            · cases h1
        · exact b2.base.disj i ((u2 i).1 h1).1 ((u3 i).1 h2).1
      · refine plan_next b2.plan rfl rfl rfl (.inl rfl) (fun i => rfl) b2.plan.opsNe rfl (fun i _ => rfl) toth (fun i _ h1 => ((u2 i).1 h1).1) (fun i _ h1 => ((u3 i).1 h1).1) ?_ ?_ ?_ ?_ ?_
        · intro p hp
          rw [tsame]
          refine ⟨rfl, ?_⟩
          obtain ⟨o, k1, k2⟩ := (b2.plan.rsvAcq x.id p hp).2
          rw [show opsIn ({ S := x :: S } : Ctx).S x.id = x.op :: opsIn S x.id from opsIn_cons_self x S] at k1
          rcases List.mem_cons.1 k1 with k1 | k1
          · rw [k1, hx] at k2; cases k2
          · exact ⟨o, k1, k2⟩
        · intro ⟨o, k1, k2⟩ _ _
          refine b2.plan.acqRsv x.id ⟨o, ?_, k2⟩ hi (by simp)
          show o ∈ opsIn (x :: S) x.id
          rw [opsIn_cons_self]; exact List.mem_cons_of_mem _ k1
        · intro _ h1; rw [tsame] at h1; cases h1
        · intro h1; exact absurd rfl ((u2 _).1 h1).2
        · intro h1; exact absurd rfl ((u3 _).1 h1).2
    refine ⟨_, S, _, rfl, ⟨hI, hpr0, hpl0⟩, ?_⟩
    intro z l hz
    obtain ⟨j1, j2, j3, j4, j5, j6⟩ := hst0 z l hz
    refine ⟨j1, ?_, j3, j4, j5, ?_⟩
    · by_cases e : z.id = x.id
      · rw [e, tsame]
      · rw [toth _ e]; exact j2
    · show fe = []
      cases hf : fe with
      | nil => rfl
      | cons g l' =>
        have := (u2 g).1 (by rw [hf]; simp)
        rw [j6] at this; cases this.1
  | some p =>
    rw [hi] at g1
    have e1 : (s0.b.blocks x.id).isEvictable = true := by simp [SB.isEvictable, SB.isInternal, SB.isAcquired, hi, hr]
    rw [e1] at g1
    simp only [if_true, Option.some.injEq] at g1
    simp only
    have hg0 : gvr s0 x.id = none := by
      cases hz : gvr s0 x.id with
      | none => rfl
      | some g => have := q4 g hz; rw [hi] at this; cases this
    have hr0 : rsv s0 x.id = none := by
      cases hz : rsv s0 x.id with
      | none => rfl
      | some q => have := (b2.plan.rsvAcq _ q hz).1; rw [hi] at this; cases this
    have vb : v1.blocks = (v.set x.id {}).blocks := by rw [← g1]; rfl
    have ve : ∀ i, i ∈ v1.evict.map (·.2) ↔ i ∈ v.evict.map (·.2) ∧ i ≠ x.id := by
      intro i; rw [← g1]
      show i ∈ (Swap.eraseEvict v.evict x.id).map (·.2) ↔ _
      rw [Swap.erase_ids]
    have hkk : ∀ k, shallKeep (({ s0 with freeEv := fe, schedEv := se } : St D).setBlk x.id {}) x.id (opsIn S x.id) = k → (k = true ↔ HasAcq S x.id) := by
      rintro k rfl
      constructor
      · intro hk
        rcases shallKeep_true hk with ⟨o, h1, h2⟩ | ⟨h1, _⟩
        · exact ⟨o, h1, h2⟩
        · rw [tsame] at h1; cases h1
      · rintro ⟨o, h1, h2⟩
        cases hk : shallKeep (({ s0 with freeEv := fe, schedEv := se } : St D).setBlk x.id {}) x.id (opsIn S x.id) with
        | true => rfl
        | false => rw [(not_keep hk).1 o h1] at h2; cases h2
    cases hk : shallKeep (({ s0 with freeEv := fe, schedEv := se } : St D).setBlk x.id {}) x.id (opsIn S x.id) with
    | true =>
      simp only [if_true]
      have hD : Dropped s0 ((({ s0 with freeEv := fe, schedEv := se } : St D).setBlk x.id {}).setMeta x.id (some { m with reserved := some p })) x.id p true := by
        refine ⟨⟨rfl, rfl, rfl, rfl, fun i => ?_, fun i => ?_, fun i hi => ?_, toth, rfl⟩, tsame, rfl, rfl, rfl, rfl, rfl, rfl, rfl, ?_, fun i => ?_, fun i m' hm' => ?_, u2, u3⟩
        · rw [gvr_setMeta]; split
          · rename_i e; subst e; rw [gvr_of hm]
          · rfl
        · rw [rrq_setMeta]; split
          · rename_i e; subst e; rw [rrq_of hm]
          · rfl
        · rw [rsv_setMeta, if_neg hi]; rfl
        · rw [rsv_setMeta, if_pos rfl]; rfl
        · rw [opsOf_setMeta]; split
          · rename_i e; subst e; rw [opsOf_of hm]
          · rfl
        · by_cases e : i = x.id
          · subst e; rw [setMeta_same] at hm'; cases hm'; exact ⟨m, hm, rfl⟩
          · rw [setMeta_other _ _ e] at hm'; exact ⟨m', hm', rfl⟩
      have hI := drop_ok b2 hD hi hg0 q3 q2 q1 (hkk true hk) g2 vb (by rw [← g1]; rfl) (by rw [← g1]; rfl) (by rw [← g1]; rfl) (by rw [← g1]; rfl) (by rw [← g1]; rfl) (by rw [← g1]; rfl) (by rw [← g1]; rfl) (by rw [← g1]; rfl) ve
      exact dropped_end E hE hD hI hi hpr0 hpl0 hpl0.2 hst0
    | false =>
      simp only [Bool.false_eq_true, if_false]
      have hD : Dropped s0 { (({ s0 with freeEv := fe, schedEv := se } : St D).setBlk x.id {}) with b := Swap.giveBack (({ s0 with freeEv := fe, schedEv := se } : St D).setBlk x.id {}).b p } x.id p false :=
        ⟨⟨rfl, rfl, rfl, rfl, fun i => rfl, fun i => rfl, fun i hi => rfl, toth, rfl⟩, tsame, rfl, rfl, rfl, rfl, rfl, rfl, rfl, hr0, fun i => rfl, fun i m' hm' => ⟨m', hm', rfl⟩, u2, u3⟩
      have hI := drop_ok b2 hD hi hg0 q3 q2 q1 (hkk false hk) g2 vb (by rw [← g1]; rfl) (by rw [← g1]; rfl) (by rw [← g1]; rfl) (by rw [← g1]; rfl) (by rw [← g1]; rfl) (by rw [← g1]; rfl) (by rw [← g1]; rfl) (by rw [← g1]; rfl) ve
      exact dropped_end E hE hD hI hi hpr0 hpl0 hpl0.2 hst0

end Foxxll.Ahead
