import Verif.Proofs.AheadDeinit

set_option linter.unusedSimpArgs false
set_option linter.unusedVariables false
set_option linter.unusedSectionVars false

/-
offline_lru_prefetching: the calls `initialize`, `free_swappable_block`, `allocate_swappable_block`, and the client's own
external blocks.
-/
namespace Foxxll.Ahead
open Foxxll.Swap (SB Env POp Elem Op Res Abs Allowed Expected)

variable {D : Type} [Slack D]

theorem init_ok (E : Env D) (hE : ∀ l, E.pick l ∉ l) {dflt : D} {a : Abs D} {s : St D} {x : Elem} {S : List Elem} {v : Swap.St D}
    (h : SInv dflt a s (x :: S) v) (hx : x.op = .init) (e : Option Nat) (ha : Allowed a (.init x.id e)) :
    ∃ s' v', initialize_ E s x.id e = some s' ∧ SInv dflt (a.next (.init x.id e) .unit) s' S v' := by
  obtain ⟨s0, b1, b2, b3⟩ := begin_ok h
  have hst0 : Stuck s0 := Stuck.frW (s := { s with pred := S ++ s.next }) h.stuck b3
  have hpl0 : Rest s0 := h.rest0 b3
  have hpr0 : s0.pred = S ++ s0.next := by rw [b3.pred, b3.next]
  have hbv := Swap.no_data b2.sw ha.1 ha.2.1
  have hbx : s0.b.blocks x.id = {} := by rw [← b2.base.blocks]; exact hbv
  have hid : x.id < v.n := by rw [b2.base.n]; exact (b2.plan.ids x (by simp))
  have hops := b2.plan.ops x.id
  simp only [curOps, List.nil_append, opsIn_cons_self] at hops
  obtain ⟨m, hm⟩ : ∃ m, s0.sched x.id = some m := by
    cases hz : s0.sched x.id with
    | none => simp [opsOf, hz] at hops
    | some m => exact ⟨m, rfl⟩
  rw [opsOf_of hm] at hops
  have htl : m.ops.tail = opsIn S x.id := by rw [hops]; rfl
  have q2 : s0.wsched x.id = none := by
    cases hw : s0.wsched x.id with
    | none => rfl
    | some w => have := (b2.io.wOk _ w hw).1; rw [hbx] at this; cases this
  have q3 : rrq s0 x.id = none := by
    cases hz : rrq s0 x.id with
    | none => rfl
    | some r => have := (b2.io.rrqOk _ r hz).1; rw [hbx] at this; exact absurd rfl this
  have q5 : ∀ i, (i ∈ s0.freeEv ∨ i ∈ s0.schedEv ∨ (none : Option Nat) = some i) → i ≠ x.id := by
    rintro i h1 rfl
    obtain ⟨⟨p, hp⟩, _⟩ := b2.ev_facts h1
    rw [hbx] at hp; cases hp
  have hacq : HasAcq S x.id → rsv s0 x.id ≠ none := by
    rintro ⟨o, k1, k2⟩
    refine b2.plan.acqRsv x.id ⟨o, ?_, k2⟩ (by rw [hbx]) (by simp)
    show o ∈ opsIn (x :: S) x.id
    rw [opsIn_cons_self]; exact List.mem_cons_of_mem _ k1
  obtain ⟨r, v1, g1, g2, g3⟩ := Swap.init_good E b2.sw x.id e hid ha
  have hni : ({} : SB).isInitialized = false := rfl
  simp only [Swap.step, Swap.initialize_, Nat.not_le.2 hid, if_false, hbv, hni, Bool.false_eq_true, Option.map_some, Option.some.injEq, Prod.mk.injEq] at g1
  obtain ⟨rfl, rfl⟩ := g1
  generalize ht : ({ s0 with b := { (s0.b.set x.id { ext := e }) with held := s0.b.held.filter (fun x => some x != e) } } : St D) = t
  have tsame : t.b.blocks x.id = { ext := e } := by rw [← ht]; exact Swap.set_same _ _ _
  have toth : ∀ i, i ≠ x.id → t.b.blocks i = s0.b.blocks i := fun i hi => by rw [← ht]; exact Swap.set_other _ _ hi
  have trsv : ∀ i, rsv t i = rsv s0 i := fun i => by rw [← ht]; rfl
  have tnext : t.next = s0.next := by rw [← ht]
  have tpred : t.pred = s0.pred := by rw [← ht]
  have tn : t.b.n = s0.b.n := by rw [← ht]; rfl
  have hI : Inv dflt (a.next (.init x.id e) .unit) { S := S, cur := some x, miss := some x.id } { (v.set x.id { ext := e }) with held := v.held.filter (fun x => some x != e) } t := by
    refine touch_ok (c := x.id) b2 ⟨by rw [← ht], by rw [← ht], by rw [← ht], tnext, fun i => by rw [← ht]; rfl, fun i => by rw [← ht]; rfl, fun i _ => trsv i, toth, by rw [← ht]; rfl⟩ q3 (fun w hz => by rw [q2] at hz; cases hz) rfl (fun d _ => ⟨by rw [tsame], by rw [tsame], fun hb => hb.tail fun _ => by rw [hx]; rfl⟩) (fun i hc => hc) (fun i hc => hc)
      (fun g hg => ⟨trsv _, by rw [hbx], by rw [tsame], fun hb => hb.tail fun _ => by rw [hx]; rfl⟩) (fun i hi => opsIn_tail hi) bef_next g3 ?_ ?_ rfl (fun p => .inl ⟨rfl, by rw [← ht]; rfl⟩)
    · refine ⟨?_, by rw [tn]; exact b2.base.n, by rw [← ht]; show _ = _; simp only; rw [b2.base.held], by rw [← ht]; exact b2.base.next, by rw [← ht]; exact b2.base.remaining, by rw [← ht]; exact b2.base.max,
        fun q => ?_, by rw [← ht]; exact b2.base.freeNd, fun i q => ?_, by simp only [trsv]; exact b2.base.rsvInj, by rw [← ht]; exact b2.base.vev, by rw [← ht]; exact b2.base.disj⟩
      · funext i
        show (v.set x.id _).blocks i = _
        by_cases e : i = x.id
        · subst e; rw [Swap.set_same, tsame]
        · rw [Swap.set_other _ _ e, toth i e, b2.base.blocks]
      · simp only [trsv]; rw [← ht]; exact b2.base.vfree q
      · rw [trsv, ← ht]; exact b2.base.rsvFree i q
    · refine plan_next b2.plan rfl rfl rfl (.inr rfl) (fun i => by rw [← ht]; rfl) (by rw [← ht]; exact b2.plan.opsNe) tn (fun i _ => trsv i) toth (fun i _ h1 => by rw [← ht] at h1; exact h1) (fun i _ h1 => by rw [← ht] at h1; exact h1) ?_ ?_ ?_ ?_ ?_
      · intro p hp
        rw [tsame]
        refine ⟨rfl, ?_⟩
        rw [trsv] at hp
        obtain ⟨o, k1, k2⟩ := (b2.plan.rsvAcq x.id p hp).2
        rw [show opsIn ({ S := x :: S } : Ctx).S x.id = x.op :: opsIn S x.id from opsIn_cons_self x S] at k1
        rcases List.mem_cons.1 k1 with k1 | k1
        · rw [k1, hx] at k2; cases k2
        · exact ⟨o, k1, k2⟩
      · intro _ _ h3; exact absurd rfl h3
      · intro _ _ h3; exact absurd rfl h3
      · intro h1; rw [← ht] at h1; exact absurd rfl (q5 _ (.inl h1))
      · intro h1; rw [← ht] at h1; exact absurd rfl (q5 _ (.inr (.inl h1)))
  have hstt : Stuck t := by
    intro z l hz
    rw [tnext] at hz
    obtain ⟨j1, j2, j3, j4, j5, j6⟩ := hst0 z l hz
    refine ⟨j1, ?_, by rw [trsv]; exact j3, by rw [← ht]; exact j4, by rw [← ht]; exact j5, by rw [← ht]; exact j6⟩
    by_cases e : z.id = x.id
    · rw [e, tsame]
    · rw [toth _ e]; exact j2
  suffices hg : ∃ s' v', (if shallRead t x.id (opsIn S x.id) then prefetch E t x.id else some t) = some s' ∧ Mid dflt (a.next (.init x.id e) .unit) x s' S v' ∧ Stuck s' by
    obtain ⟨s1, v', k1, k2, k3⟩ := hg
    obtain ⟨s', k4, k5⟩ := done_ok k2 k3
    refine ⟨s', v', ?_, k5⟩
    unfold initialize_
    rw [← hx, b1, Option.bind_some, hm]
    simp only [St.blk, hbx, hni, Bool.false_eq_true, if_false, htl]
    rw [ht, k1, Option.bind_some, k4]
  cases hsr : shallRead t x.id (opsIn S x.id) with
  | true =>
    simp only [if_true]
    have hsr' : (t.b.blocks x.id).isInitialized = true ∧ First S x.id := by
      simpa [shallRead, St.blk, First] using hsr
    obtain ⟨hini, hf⟩ := hsr'
    obtain ⟨q, hq⟩ := Option.ne_none_iff_exists'.1 (hacq hf.hasAcq)
    obtain ⟨s', v', p1, p2, p3, p4, p5, p6, p7⟩ := prefetch_ok E hI (c := x.id) (q := q) (by rw [trsv]; exact hq) (fun i hc => hc) rfl hf hini (.inr rfl) (by simp) (by rw [tn, ← b2.base.n]; exact hid)
    refine ⟨s', v', p1, ⟨p2, by rw [p3.pred, tpred, p5, tnext, hpr0], by rw [p5, tnext, p3.n, tn]; exact hpl0.1, by rw [p3.pred, tpred]; exact hpl0.2⟩, ?_⟩
    intro z l hz
    rw [p5] at hz
    obtain ⟨j1, j2, j3, j4, j5, j6⟩ := hstt z l hz
    have hzn : z.id ≠ x.id := by intro hc; rw [hc, trsv, hq] at j3; cases j3
    exact ⟨j1, p7 _ hzn j2, p6 _ j3, (p3.out j4 j5).1, (p3.out j4 j5).2, by rw [p4]; exact j6⟩
  | false =>
    simp only [Bool.false_eq_true, if_false]
    refine ⟨t, _, rfl, ⟨hI.dropMiss (fun c hc => ?_), by rw [tpred, tnext, hpr0], by rw [tnext, tn]; exact hpl0.1, by rw [tpred]; exact hpl0.2⟩, hstt⟩
    cases hc
    refine ⟨fun h1 _ => by rw [trsv]; exact hacq h1, fun h1 h2 => ?_⟩
    exfalso
    have : shallRead t x.id (opsIn S x.id) = true := by
      have h1 : First S x.id := h1
      unfold First at h1
      simp [shallRead, St.blk, h2, h1]
    rw [this] at hsr; cases hsr

/-- More blocks, other free identifiers. -/
theorem Inv.grow {dflt : D} {a : Abs D} {k : Ctx} {v : Swap.St D} {s : St D} (h : Inv dflt a k v s) (n' : Nat) (fi : List Nat) (hn : s.b.n ≤ n') :
    Inv dflt a k { v with n := n' } { s with b := { s.b with n := n', freeIds := fi } } := by
  have c := h.sw.core
  have hn' : v.n ≤ n' := by rw [h.base.n]; exact hn
  refine ⟨⟨⟨c.total, c.freeNd, c.freeLt, fun i p hp => ?_, c.inj, c.handOk, c.cover, c.dirtyInt, c.refsInt, c.extOwn, fun i e hx => ?_⟩, h.sw.ev.congr rfl rfl,
      fun i => Swap.ok_frame (h.sw.ok i) rfl (fun _ _ => rfl) (fun _ _ => rfl) rfl rfl rfl rfl, h.sw.held⟩,
    ⟨h.base.blocks, rfl, h.base.held, h.base.next, h.base.remaining, h.base.max, h.base.vfree, h.base.freeNd, h.base.rsvFree, h.base.rsvInj, h.base.vev, h.base.disj⟩,
    ⟨h.plan.ops, h.plan.opsNe, fun x hx => ?_, h.plan.rsvAcq, h.plan.acqRsv, h.plan.pre, h.plan.evF, h.plan.evS⟩,
    ⟨h.io.rrqOk, h.io.rrqInj, h.io.rrqW, h.io.rdOk, h.io.rdNd, h.io.gvrOk, h.io.gvrW, h.io.wOk, h.io.dueOk⟩,
    ⟨h.view.intact, h.view.vdN, h.view.vmR, h.view.vmN⟩⟩
  · obtain ⟨x1, x2⟩ := c.att i p hp; exact ⟨Nat.lt_of_lt_of_le x1 hn', x2⟩
  · obtain ⟨x1, x2⟩ := c.extLive i e hx; exact ⟨Nat.lt_of_lt_of_le x1 hn', x2⟩
  · exact Nat.lt_of_lt_of_le (h.plan.ids x hx) hn

theorem SInv.grow {dflt : D} {a : Abs D} {s : St D} {S : List Elem} {v : Swap.St D} (h : SInv dflt a s S v) (n' : Nat) (fi : List Nat) (hn : s.b.n ≤ n') :
    SInv dflt a { s with b := { s.b with n := n', freeIds := fi } } S { v with n := n' } :=
  ⟨h.inv.grow n' fi hn, h.pred, ⟨fun x hx => Nat.lt_of_lt_of_le (h.plain.1 x hx) hn, h.plain.2⟩, h.stuck⟩

theorem free_ok (E : Env D) (hE : ∀ l, E.pick l ∉ l) {dflt : D} {a : Abs D} {s : St D} {x : Elem} {S : List Elem} {v : Swap.St D}
    (h : SInv dflt a s (x :: S) v) (hx : x.op = .deinit) (ha : a.refs x.id = 0) :
    ∃ s' S' v', freeBlock E s x.id = some s' ∧ SInv dflt { a with data := Swap.upd a.data x.id none } s' S' v' := by
  obtain ⟨s1, S', v', h1, h2⟩ := deinit_ok E hE h hx ha
  refine ⟨_, S', _, ?_, h2.grow s1.b.n (x.id :: s1.b.freeIds) (Nat.le_refl _)⟩
  unfold freeBlock
  rw [h1]; rfl

/-- Between two calls the I/O threads may go on. -/
theorem SInv.frW {dflt : D} {a : Abs D} {s t : St D} {S : List Elem} {v v' : Swap.St D} (h : SInv dflt a s S v) (hi : Inv dflt a { S := S } v' t) (f : FrW s t) : SInv dflt a t S v' :=
  ⟨hi, by rw [f.pred, f.next]; exact h.pred, ⟨by rw [f.next, f.b]; exact h.plain.1, by rw [f.pred]; exact h.plain.2⟩, h.stuck.frW f⟩

theorem swapAlloc {dflt : D} {a : Abs D} {k : Ctx} {v : Swap.St D} {s : St D} (h : Inv dflt a k v s) :
    ∃ n' fi, (Swap.alloc s.b).2 = { s.b with n := n', freeIds := fi } ∧ s.b.n ≤ n' := by
  unfold Swap.alloc
  cases hf : s.b.freeIds with
  | cons x rest => exact ⟨s.b.n, (x :: rest).erase (rest.foldl min x), rfl, Nat.le_refl _⟩
  | nil =>
    refine ⟨s.b.n + 1, [], ?_, Nat.le_succ _⟩
    have c := h.sw.core
    have hb : s.b.blocks s.b.n = {} := by
      rw [← h.base.blocks, ← h.base.n]
      have hi : (v.blocks v.n).int = none := by
        cases hp : (v.blocks v.n).int with
        | none => rfl
        | some p => exact absurd (c.att _ p hp).1 (Nat.lt_irrefl _)
      have he : (v.blocks v.n).ext = none := by
        cases hp : (v.blocks v.n).ext with
        | none => rfl
        | some p => exact absurd (c.extLive _ p hp).1 (Nat.lt_irrefl _)
      have h1 := c.dirtyInt v.n
      have h2 := c.refsInt v.n
      generalize v.blocks v.n = b at *
      cases b
      simp_all
    have hbl : (fun j => if j = s.b.n then ({} : SB) else s.b.blocks j) = s.b.blocks := by
      funext j; by_cases e : j = s.b.n
      · rw [if_pos e, e, hb]
      · rw [if_neg e]
    simp only [hbl]

theorem client_inv (E : Env D) (hE : ∀ l, E.pick l ∉ l) {dflt : D} {a : Abs D} {s : St D} {S : List Elem} {v : Swap.St D} (h : Inv dflt a { S := S } v s) (d : D) :
    ∃ v', Inv dflt (a.next (.client d) (.ext (some (Swap.clientBlock E s.b d).1))) { S := S } v' { s with b := (Swap.clientBlock E s.b d).2 } ∧
      Expected dflt a (.client d) (.ext (some (Swap.clientBlock E s.b d).1)) := by
  have hlive : v.live = s.b.live := by unfold Swap.St.live; rw [h.base.blocks, h.base.n, h.base.held]
  obtain ⟨r, v1, g1, g2, g3⟩ := Swap.client_good E hE h.sw d
  simp only [Swap.step, Swap.clientBlock, hlive, Option.some.injEq, Prod.mk.injEq] at g1
  obtain ⟨rfl, rfl⟩ := g1
  refine ⟨_, ⟨g3, ?_, ?_, ?_, ?_⟩, g2⟩
  · have b := h.base
    refine ⟨b.blocks, b.n, ?_, b.next, b.remaining, b.max, b.vfree, b.freeNd, b.rsvFree, b.rsvInj, b.vev, b.disj⟩
    show _ :: v.held = _ :: s.b.held
    rw [b.held]
  · have p := h.plan
    exact ⟨p.ops, p.opsNe, p.ids, p.rsvAcq, p.acqRsv, p.pre, p.evF, p.evS⟩
  · have i := h.io
    exact ⟨i.rrqOk, i.rrqInj, i.rrqW, i.rdOk, i.rdNd, i.gvrOk, i.gvrW, i.wOk, i.dueOk⟩
  · have hne : ∀ i e, (s.b.blocks i).ext = some e → e ≠ E.pick s.b.live := by
      rintro i e h1 rfl
      rw [← h.base.blocks] at h1
      have := Swap.mem_live h.sw.core h1
      rw [hlive] at this
      exact hE _ this
    refine ⟨fun g w hw hr => ?_, fun e he => ?_, fun i p e hi h1 h2 => ?_, h.view.vmN⟩
    · have := hne g w.ext (h.io.wOk g w hw).1
      show s.b.mem w.buf = if w.ext = E.pick s.b.live then d else v.disk w.ext
      rw [if_neg this]; exact h.view.intact g w hw hr
    · show (if e = E.pick s.b.live then d else v.disk e) = if e = E.pick s.b.live then d else s.b.disk e
      rw [h.view.vdN e he]
    · show v.mem p = if e = E.pick s.b.live then d else v.disk e
      rw [if_neg (hne i e h2)]; exact h.view.vmR i p e hi h1 h2

theorem start_ok (E : Env D) (hE : ∀ l, E.pick l ∉ l) {dflt : D} {a : Abs D} {b : Swap.St D} (h : Swap.Inv dflt b a) (seq : List Elem) (orc : List (List Disk)) (hq : (∀ x ∈ seq, x.id < b.n) ∧ Tame D seq) :
    ∃ s S v, start E b seq orc = some s ∧ SInv dflt a s S v := by
  have hI : Inv dflt a { S := [] } b ({ b := { b with evict := [] }, freeEv := b.evict.map (·.2), pred := seq, next := seq, orc := orc } : St D) := by
    refine ⟨h, ⟨rfl, rfl, rfl, rfl, rfl, rfl, fun p => ?_, h.core.freeNd, fun c p hc => ?_, fun c d p hc => ?_, fun i => ?_, fun i _ => by simp⟩, ⟨fun c => rfl, fun c m hm => ?_, fun x hx => ?_, fun c p hc => ?_, fun c hc => ?_, fun c hc => ?_, fun i _ => ?_, fun i hi => ?_⟩,
      ⟨fun c r hr => ?_, fun c d r hr => ?_, fun c r g w hr => ?_, fun x hx => ?_, List.nodup_nil, fun c g hg => ?_, fun c g w hg => ?_, fun g w hw => ?_, fun c hc => False.elim hc⟩,
      ⟨fun g w hw => ?_, fun e _ => rfl, fun i p e hi => ?_, fun p _ => rfl⟩⟩
    · refine ⟨fun h1 => .inl h1, ?_⟩
      rintro (h1 | ⟨c, hc⟩)
      · exact h1
      · cases hc
    · cases hc
    · cases hc
    · simp
    · cases hm
    · cases hx
    · cases hc
    · obtain ⟨o, h1, _⟩ := hc; cases h1
    · cases hc
    · exact ⟨fun ⟨o, h1, _⟩ => (by cases h1), fun _ => by simp [opsIn]⟩
    · cases hi
    · cases hr
    · cases hr
    · cases hr
    · cases hx
    · cases hg
    · cases hg
    · cases hw
    · cases hw
    · rcases hi with ⟨r, hr, _⟩ | ⟨_, hd | ⟨g, w, hg, _⟩⟩
      · cases hr
      · exact False.elim hd
      · cases hg
  obtain ⟨s', v', S', h1, h2, h3, h4, h5, h6⟩ := scheduleLoop_ok E hE seq hI ⟨fun i hc => hc, rfl, rfl, fun y hy => (by cases hy), fun y hy => (by cases hy)⟩ rfl rfl hq.1
  refine ⟨s', S', v', h1, h2, ?_, ⟨fun x hx => ?_, by rw [h4.pred]; exact hq.2⟩, h5⟩
  · rw [h4.pred]; exact h3.symm
  · have := hq.1 x (h6 x hx)
    rw [h4.n]; exact this

end Foxxll.Ahead
