import Verif.Proofs.AheadAcquire

set_option linter.unusedSimpArgs false
set_option linter.unusedVariables false
set_option linter.unusedSectionVars false

/-
offline_lru_prefetching: the calls `acquire` and `write`.
-/
namespace Foxxll.Ahead
open Foxxll.Swap (SB Env POp Elem Op Res Abs Allowed Expected)

variable {D : Type} [Slack D]

/-- No block is cleaned for its extraction before it is used again, or the contents of the blocks are not looked at. -/
def Tame (D : Type) [Slack D] (l : List Elem) : Prop := Tidy l ∨ Slack.ok D

/-- The rest of the sequence. -/
def Rest (s : St D) : Prop := (∀ x ∈ s.next, x.id < s.b.n) ∧ Tame D s.pred

theorem Tidy.tail {x : Elem} {l : List Elem} (h : Tidy (x :: l)) : Tidy l := fun u y v e => h (x :: u) y v (by rw [e]; rfl)

theorem Tame.tail {x : Elem} {l : List Elem} (h : Tame D (x :: l)) : Tame D l := h.imp Tidy.tail id

/-- Between the calls: `S` is scheduled, the rest of the sequence cannot be scheduled yet. -/
structure SInv (dflt : D) (a : Abs D) (s : St D) (S : List Elem) (v : Swap.St D) : Prop where
  inv : Inv dflt a { S := S } v s
  pred : s.pred = S ++ s.next
  plain : Rest s
  stuck : Stuck s

theorem Stuck.frW {s t : St D} (h : Stuck s) (f : FrW s t) : Stuck t := by
  intro x l hx
  rw [f.next] at hx
  have := h x l hx
  rw [f.b, f.rsv, f.freeEv]; exact this

theorem begin_ok {dflt : D} {a : Abs D} {s : St D} {x : Elem} {S : List Elem} {v : Swap.St D} (h : SInv dflt a s (x :: S) v) :
    ∃ s0, begin_ s x.op x.id = some s0 ∧ Inv dflt a { S := x :: S } v s0 ∧ FrW { s with pred := S ++ s.next } s0 := by
  have hop : ((s.sched x.id).bind fun m => m.ops.head?) = some x.op := by
    obtain ⟨m, hm⟩ : ∃ m, s.sched x.id = some m := by
      have := h.inv.plan.ops x.id
      cases hz : s.sched x.id with
      | none => simp only [opsOf, hz, opsIn_cons_self] at this; simp [curOps] at this
      | some m => exact ⟨m, rfl⟩
    have := h.inv.plan.ops x.id
    rw [opsOf_of hm] at this
    rw [hm, Option.bind_some, this]
    simp [curOps, opsIn_cons_self]
  unfold begin_
  rw [h.pred]
  simp only [List.cons_append, hop, and_self, if_true]
  obtain ⟨s0, h1, h2, h3⟩ := sync_ok (h.inv.misc s.orc (S ++ s.next))
  exact ⟨s0, h1, h2, h3.toFr0.frW⟩

theorem SInv.rest0 {dflt : D} {a : Abs D} {s s0 : St D} {x : Elem} {S : List Elem} {v : Swap.St D} (h : SInv dflt a s (x :: S) v) (f : FrW { s with pred := S ++ s.next } s0) : Rest s0 := by
  refine ⟨by rw [f.next, f.b]; exact h.plain.1, ?_⟩
  rw [f.pred]
  have := h.plain.2
  rw [h.pred] at this
  exact Tame.tail this

/-- A call that does not fail at its start is the next of the sequence, and scheduled. -/
theorem begin_some {dflt : D} {a : Abs D} {s s0 : St D} {S : List Elem} {v : Swap.St D} (h : SInv dflt a s S v) {op : POp} {c : Nat} (hb : begin_ s op c = some s0) :
    ∃ x S', S = x :: S' ∧ x.op = op ∧ x.id = c := by
  unfold begin_ at hb
  cases hp : s.pred with
  | nil => rw [hp] at hb; cases hb
  | cons x l =>
    rw [hp] at hb
    simp only at hb
    split at hb
    · rename_i hc
      obtain ⟨h1, h2, h3⟩ := hc
      cases S with
      | nil =>
        exfalso
        have := h.inv.plan.ops c
        simp only [curOps, opsIn, List.nil_append, List.filter_nil, List.map_nil] at this
        cases hz : s.sched c with
        | none => rw [hz] at h3; cases h3
        | some m => exact h.inv.plan.opsNe c m hz (by rw [opsOf_of hz] at this; exact this)
      | cons y S' =>
        have := h.pred
        rw [hp] at this
        simp only [List.cons_append, List.cons.injEq] at this
        exact ⟨y, S', rfl, by rw [← this.1]; exact h1, by rw [← this.1]; exact h2⟩
    · cases hb

/-- The end of `acquire`. -/
theorem acquire_end {s4 : St D} {c p : Nat} (hp : (s4.b.blocks c).int = some p) :
    (match (s4.blk c).int with
      | none => none
      | some p => (opDone (s4.setBlk c { s4.blk c with refs := (s4.blk c).refs + 1 }) c).map fun s5 => (p, s5)) =
    (opDone (s4.setBlk c { s4.b.blocks c with refs := (s4.b.blocks c).refs + 1 }) c).map fun s5 => (p, s5) := by
  show (match (s4.b.blocks c).int with
      | none => none
      | some p => (opDone (s4.setBlk c { s4.b.blocks c with refs := (s4.b.blocks c).refs + 1 }) c).map fun s5 => (p, s5)) = _
  generalize opDone (s4.setBlk c { s4.b.blocks c with refs := (s4.b.blocks c).refs + 1 }) c = r
  rw [hp]

theorem acquire_ok (E : Env D) (hE : ∀ l, E.pick l ∉ l) {dflt : D} (hfill : ∀ d, E.fill d = dflt) {a : Abs D} {s : St D} {x : Elem} {S : List Elem} {v : Swap.St D}
    (h : SInv dflt a s (x :: S) v) {u : Bool} (hx : x.op = if u then .acquireUninit else .acquire) :
    ∃ p s' v', acquire E s x.id u = some (p, s') ∧ SInv dflt (a.next (.acquire x.id u) (.data (s'.b.mem p))) s' S v' ∧ Expected dflt a (.acquire x.id u) (.data (s'.b.mem p)) := by
  have hxa : isAcq x.op = true := by rw [hx]; cases u <;> rfl
  have hacq : HasAcq (x :: S) x.id := ⟨x.op, by rw [opsIn_cons_self]; simp, hxa⟩
  obtain ⟨s0, b1, b2, b3⟩ := begin_ok h
  have hst0 : Stuck s0 := Stuck.frW (s := { s with pred := S ++ s.next }) h.stuck b3
  have hpl0 : Rest s0 := h.rest0 b3
  have hpr0 : s0.pred = S ++ s0.next := by rw [b3.pred, b3.next]
  obtain ⟨m0, hm0⟩ := b2.sched_some hacq
  unfold acquire
  rw [← hx, b1, Option.bind_some]
  cases hi : (s0.b.blocks x.id).int with
  | some p =>
    have e1 : (s0.blk x.id).isInternal = true := by simp [St.blk, SB.isInternal, hi]
    rw [e1]
    simp only [if_true]
    -- the block without read requests
    obtain ⟨s4, o, w1, w2, w3, w4, w5, w6, w7, w8⟩ : ∃ s4 o, (if (s0.blk x.id).isAcquired then some s0 else if x.id ∈ s0.schedEv then waitRead { s0 with schedEv := eraseId s0.schedEv x.id } x.id else none) = some s4 ∧
        Inv dflt a { S := x :: S, out := o } v s4 ∧ gvr s4 x.id = none ∧ rrq s4 x.id = none ∧ x.id ∉ s4.freeEv ∧ x.id ∉ s4.schedEv ∧
        ((o = none ∧ 0 < (s4.b.blocks x.id).refs) ∨ (o = some x.id ∧ (s4.b.blocks x.id).refs = 0)) ∧
        (s4.b = { s0.b with mem := s4.b.mem, disk := s4.b.disk } ∧ s4.freeEv = s0.freeEv ∧ s4.next = s0.next ∧ s4.pred = s0.pred ∧ ∀ i, rsv s4 i = rsv s0 i) := by
      by_cases ha : 0 < (s0.b.blocks x.id).refs
      · have e2 : (s0.blk x.id).isAcquired = true := by simp [St.blk, SB.isAcquired, ha]
        rw [e2]
        have hnev : ∀ g, (g ∈ s0.freeEv ∨ g ∈ s0.schedEv ∨ (none : Option Nat) = some g) → g ≠ x.id := by
          rintro g hg rfl; have := (b2.ev_facts hg).2.1; omega
        refine ⟨s0, none, rfl, b2, ?_, ?_, fun hc => hnev _ (.inl hc) rfl, fun hc => hnev _ (.inr (.inl hc)) rfl, .inl ⟨rfl, ha⟩, rfl, rfl, rfl, rfl, fun _ => rfl⟩
        · cases hz : gvr s0 x.id with
          | none => rfl
          | some g =>
            rcases (b2.io.gvrOk _ g hz).2.2.2 with h1 | h1
            · cases hq : rsv s0 x.id with
              | none => exact absurd hq h1
              | some q => have := (b2.plan.rsvAcq _ q hq).1; rw [hi] at this; cases this
            · omega
        · cases hz : rrq s0 x.id with
          | none => rfl
          | some r => have := (b2.io.rrqOk _ r hz).2.1; omega
      · have ha : (s0.b.blocks x.id).refs = 0 := by omega
        have e2 : (s0.blk x.id).isAcquired = false := by simp [St.blk, SB.isAcquired, ha]
        rw [e2]
        simp only [Bool.false_eq_true, if_false]
        have hnf : x.id ∉ s0.freeEv := fun hc => (b2.plan.evF _ hc).1 hacq
        have hse : x.id ∈ s0.schedEv := by
          rcases b2.ev_of (by rw [hi]; simp) ha with h1 | h1 | h1
          · exact absurd h1 hnf
          · exact h1
          · cases h1
        rw [if_pos hse]
        have l1 := b2.lists s0.freeEv (eraseId s0.schedEv x.id) (some x.id) (fun i => by
            rw [mem_eraseId]
            constructor
            · rintro (h1 | h1 | h1)
              · exact .inl h1
              · exact .inr (.inl h1.1)
              · cases h1; exact .inr (.inl hse)
            · rintro (h1 | h1 | h1)
              · exact .inl h1
              · by_cases e : i = x.id
                · subst e; exact .inr (.inr rfl)
                · exact .inr (.inl ⟨h1, e⟩)
              · cases h1)
          (fun i h1 h2 => b2.base.disj i h1 (mem_eraseId.1 h2).1) b2.plan.evF (fun i h1 => b2.plan.evS i (mem_eraseId.1 h1).1)
        obtain ⟨s4, r1, r2, r3, r4, r5, _⟩ := waitRead_ok l1 (c := x.id) hm0 (fun hc => hc)
        refine ⟨s4, some x.id, r1, r2, r4, r5, by rw [r3.freeEv]; exact hnf, by rw [r3.schedEv]; exact fun hc => (mem_eraseId.1 hc).2 rfl, .inr ⟨rfl, by rw [r3.b]; exact ha⟩, r3.b, r3.freeEv, r3.next, r3.pred, r3.rsv⟩
    obtain ⟨w8, w9, w10, w11, w12⟩ := w8
    rw [w1, Option.bind_some]
    have hp4 : (s4.b.blocks x.id).int = some p := by rw [w8]; exact hi
    obtain ⟨v', i1, i2⟩ := acqInt_ok E u w2 hxa w3 w4 hp4 w5 w6 w7
    obtain ⟨s', o1, o2, o3, o4, o5, o6, o7⟩ := opDone_ok i1 rfl
    have hmem : s'.b.mem p = s4.b.mem p := by rw [o3]; rfl
    refine ⟨p, s', v', (acquire_end hp4).trans (by rw [o1]; rfl), ⟨by rw [hmem]; exact o2, ?_, ?_, ?_⟩, by rw [hmem]; exact i2⟩
    · rw [o4, o5]; show s4.pred = S ++ s4.next; rw [w11, w10]; exact hpr0
    · refine ⟨by rw [o5, o3]; show ∀ y ∈ s4.next, y.id < s4.b.n; rw [w10, w8]; exact hpl0.1, ?_⟩
      rw [o4]; show Tame D s4.pred; rw [w11]; exact hpl0.2
    · intro y l hy
      rw [o5] at hy
      have hy : s4.next = y :: l := hy
      rw [w10] at hy
      obtain ⟨k1, k2, k3, k4, k5, k6⟩ := hst0 y l hy
      have hne : y.id ≠ x.id := by intro e; rw [e, hi] at k2; cases k2
      rw [o3, o6, o7, setBlk_b_other _ _ hne]
      refine ⟨k1, ?_, ?_, ?_, ?_, ?_⟩
      · rw [w8]; exact k2
      · show rsv s4 _ = none; rw [w12]; exact k3
      · show s4.b.free = []; rw [w8]; exact k4
      · show s4.b.remaining = 0; rw [w8]; exact k5
      · show s4.freeEv = []; rw [w9]; exact k6
  | none =>
    have e1 : (s0.blk x.id).isInternal = false := by simp [St.blk, SB.isInternal, hi]
    have hini : u = true ∨ (s0.b.blocks x.id).isInitialized = false := by
      cases u with
      | true => exact .inl rfl
      | false =>
        right
        cases hz : (s0.b.blocks x.id).isInitialized with
        | false => rfl
        | true =>
          refine absurd hi (b2.plan.pre x.id ?_ hz (by simp))
          unfold First; rw [opsIn_cons_self]
          show some x.op = some POp.acquire
          rw [hx]; rfl
    have e2 : (!u && (s0.blk x.id).isInitialized) = false := by
      rcases hini with h1 | h1
      · simp [h1]
      · simp [St.blk, h1]
    rw [e1, e2]
    simp only [Bool.false_eq_true, if_false]
    obtain ⟨s1, g1, g2, g3, g4, m1, g5⟩ := waitGiver_ok b2 hm0
    rw [g1, Option.bind_some, g5]
    simp only
    have hi1 : (s1.b.blocks x.id).int = none := by rw [g3.b]; exact hi
    obtain ⟨p, hp⟩ : ∃ p, m1.reserved = some p := by
      cases hz : m1.reserved with
      | some p => exact ⟨p, rfl⟩
      | none => exact absurd (show rsv s1 x.id = none by rw [rsv_of g5]; exact hz) (g2.plan.acqRsv x.id hacq hi1 (by simp))
    rw [hp]
    simp only [Option.bind_some]
    obtain ⟨v', i1, i2⟩ := acqRsv_ok E hE hfill u g2 hx g4 hi1 g5 hp (by rw [g3.b]; exact hini)
    obtain ⟨s', o1, o2, o3, o4, o5, o6, o7⟩ := opDone_ok i1 rfl
    have e3 : ∀ (r : St D), (∃ q, (r.b.blocks x.id).int = some q ∧ q = p) → r.setBlk x.id { r.blk x.id with refs := (r.blk x.id).refs + 1 } = taken E s1 x.id p m1 u →
        (match (r.blk x.id).int with
          | none => none
          | some p => (opDone (r.setBlk x.id { r.blk x.id with refs := (r.blk x.id).refs + 1 }) x.id).map fun s5 => (p, s5)) = some (p, s') := by
      rintro r ⟨q, h1, rfl⟩ h2
      rw [acquire_end h1]
      have h2 : r.setBlk x.id { r.b.blocks x.id with refs := (r.b.blocks x.id).refs + 1 } = taken E s1 x.id q m1 u := h2
      rw [h2, o1]; rfl
    refine ⟨p, s', v', e3 _ ?_ ?_, ⟨by rw [o3]; exact o2, ?_, ?_, ?_⟩, by rw [o3]; exact i2⟩
    · cases u <;> exact ⟨p, by simp, rfl⟩
    · cases u <;> rfl
    · rw [o4, o5]
      have k1 : (taken E s1 x.id p m1 u).pred = s1.pred := by cases u <;> rfl
      have k2 : (taken E s1 x.id p m1 u).next = s1.next := by cases u <;> rfl
      rw [k1, k2, g3.pred, g3.next]; exact hpr0
    · have k1 : (taken E s1 x.id p m1 u).b.n = s1.b.n := by cases u <;> rfl
      have k2 : (taken E s1 x.id p m1 u).next = s1.next := by cases u <;> rfl
      have k3 : (taken E s1 x.id p m1 u).pred = s1.pred := by cases u <;> rfl
      exact ⟨by rw [o5, o3, k1, k2, g3.b, g3.next]; exact hpl0.1, by rw [o4, k3, g3.pred]; exact hpl0.2⟩
    · intro y l hy
      rw [o5] at hy
      have k2 : (taken E s1 x.id p m1 u).next = s1.next := by cases u <;> rfl
      rw [k2, g3.next] at hy
      obtain ⟨j1, j2, j3, j4, j5, j6⟩ := hst0 y l hy
      have hne : y.id ≠ x.id := by
        intro e
        rw [e, ← g3.rsv, rsv_of g5, hp] at j3; cases j3
      rw [o3, o6, o7]
      have k3 : (taken E s1 x.id p m1 u).b.blocks y.id = s1.b.blocks y.id := by
        cases u <;> simp [taken, St.setBlk, St.blk, St.setMeta, Swap.St.set, hne]
      have k4 : rsv (taken E s1 x.id p m1 u) y.id = rsv s1 y.id := by
        have : (taken E s1 x.id p m1 u).sched = put s1.sched x.id (some { m1 with reserved := none }) := by cases u <;> rfl
        unfold rsv; rw [this, put_other _ _ hne]
      have k5 : (taken E s1 x.id p m1 u).b.free = s1.b.free := by cases u <;> rfl
      have k6 : (taken E s1 x.id p m1 u).b.remaining = s1.b.remaining := by cases u <;> rfl
      have k7 : (taken E s1 x.id p m1 u).freeEv = s1.freeEv := by cases u <;> rfl
      rw [k3, k4, k5, k6, k7, g3.b, g3.rsv, g3.freeEv]
      exact ⟨j1, j2, j3, j4, j5, j6⟩

/-- An acquired block has no transfers. -/
theorem Inv.quiet_acquired {dflt : D} {a : Abs D} {k : Ctx} {v : Swap.St D} {s : St D} (h : Inv dflt a k v s) {c : Nat} (hr : 0 < (s.b.blocks c).refs) :
    gvr s c = none ∧ rrq s c = none ∧ (∀ d, gvr s d ≠ some c) ∧ (∀ w, s.wsched c = some w → (s.b.blocks c).ext = some w.ext ∧ (s.b.blocks c).dirty = false ∧ Stray k s c w) ∧ c ∉ s.freeEv ∧ c ∉ s.schedEv ∧ rsv s c = none ∧ ∃ p, (s.b.blocks c).int = some p := by
  obtain ⟨p, hp⟩ : ∃ p, (s.b.blocks c).int = some p := by
    have := h.sw.core.refsInt c (by rw [h.base.blocks]; exact hr)
    rw [h.base.blocks] at this
    exact Option.ne_none_iff_exists'.1 this
  have hq : rsv s c = none := by
    cases hz : rsv s c with
    | none => rfl
    | some q => have := (h.plan.rsvAcq c q hz).1; rw [hp] at this; cases this
  refine ⟨?_, ?_, fun d hd => ?_, ?_, fun hc => ?_, fun hc => ?_, hq, p, hp⟩
  · cases hz : gvr s c with
    | none => rfl
    | some g =>
      rcases (h.io.gvrOk c g hz).2.2.2 with h1 | h1
      · exact absurd hq h1
      · omega
  · cases hz : rrq s c with
    | none => rfl
    | some r => have := (h.io.rrqOk c r hz).2.1; omega
  · have := (h.io.gvrOk d c hd).2.2.1; omega
  · intro w hz
    obtain ⟨a1, a2, ⟨a3, _⟩ | a3⟩ := h.io.wOk c w hz
    · omega
    · exact ⟨a1, a2, a3⟩
  · have := (h.ev_facts (.inl hc)).2.1; omega
  · have := (h.ev_facts (.inr (.inl hc))).2.1; omega

theorem write_inv (E : Env D) {dflt : D} {a : Abs D} {s : St D} {S : List Elem} {v : Swap.St D} (h : Inv dflt a { S := S } v s) (c : Nat) (d : D) (ha : Allowed a (.write c d)) :
    ∃ b v', Swap.write s.b c d = some b ∧ Inv dflt (a.next (.write c d) .unit) { S := S } v' { s with b := b } ∧ b = { s.b with mem := b.mem } := by
  have ha : 0 < a.refs c := ha
  have hr : 0 < (s.b.blocks c).refs := by
    rw [(h.sw.ok c).refs, h.base.blocks] at ha; exact ha
  obtain ⟨q1, q2, q3, q4, q5, q6, q7, p, hp⟩ := h.quiet_acquired hr
  have hpv : (v.blocks c).int = some p := by rw [h.base.blocks]; exact hp
  have hid : c < v.n := (h.sw.core.att c p hpv).1
  have hn : ¬ s.b.n ≤ c := by have := h.base.n; omega
  obtain ⟨r, v1, g1, g2, g3⟩ := Swap.write_good E h.sw c d hid ha
  have hbx : v.blocks c = s.b.blocks c := by rw [h.base.blocks]
  have hac : (s.b.blocks c).isAcquired = true := by simp [SB.isAcquired, hr]
  have hv1 : r = .unit ∧ v1 = { v with mem := fun j => if j = p then d else v.mem j } := by
    simp only [Swap.step, Swap.write, Nat.not_le.2 hid, if_false, hbx, hac, if_true, hp, Option.map_some, Option.some.injEq, Prod.mk.injEq] at g1
    exact ⟨g1.1.symm, g1.2.symm⟩
  obtain ⟨rfl, hv1⟩ := hv1
  refine ⟨{ s.b with mem := fun j => if j = p then d else s.b.mem j }, v1, ?_, ?_, rfl⟩
  · simp only [Swap.write, hn, if_false, hac, if_true, hp, Option.map_some]
  · have hT : Touched s { s with b := { s.b with mem := fun j => if j = p then d else s.b.mem j } } c :=
      ⟨rfl, rfl, rfl, rfl, fun _ => rfl, fun _ => rfl, fun _ _ => rfl, fun _ _ => rfl, rfl⟩
    refine touch_ok h hT q2 (fun w hw => ⟨(q4 w hw).1, (q4 w hw).2.1, (q4 w hw).2.2.same rfl rfl id ⟨rfl, rfl⟩ rfl⟩) rfl (fun d hd => absurd hd (q3 d)) (fun i hc => hc) (fun i hc => hc) (fun g hc => by rw [q1] at hc; cases hc) (fun i hi => rfl) (fun _ _ _ _ h => h) g3 ?_ ?_ (by rw [hv1]) (fun q => ?_)
    · have hb := h.base
      rw [hv1]
      exact ⟨hb.blocks, hb.n, hb.held, hb.next, hb.remaining, hb.max, hb.vfree, hb.freeNd, hb.rsvFree, hb.rsvInj, hb.vev, hb.disj⟩
    · exact ⟨h.plan.ops, h.plan.opsNe, h.plan.ids, h.plan.rsvAcq, h.plan.acqRsv, h.plan.pre, h.plan.evF, h.plan.evS⟩
    · by_cases e : q = p
      · subst e
        refine .inr ⟨by rw [hv1]; simp, fun i hi hb => ?_⟩
        have hi : i ≠ c := by
          rcases hi with hi | hi
          · exact hi
          · exact absurd q1 hi
        unfold bufOf at hb
        cases hz : (s.b.blocks i).int with
        | some z => rw [hz] at hb; cases hb; exact hi (h.int_inj hz hp)
        | none => rw [hz] at hb; exact h.int_rsv hp hb
      · exact .inl ⟨by rw [hv1]; simp [e], by simp [e]⟩

end Foxxll.Ahead
