import Verif.Proofs.AheadTouch

set_option linter.unusedSimpArgs false
set_option linter.unusedVariables false
set_option linter.unusedSectionVars false

/-
offline_lru_prefetching: `acquire`.
-/
namespace Foxxll.Ahead
open Foxxll.Swap (SB Env POp Elem Op Res Abs Allowed Expected)

variable {D : Type} [Slack D]

theorem opsIn_tail {x : Elem} {S : List Elem} {i : Nat} (h : i ≠ x.id) : opsIn S i = opsIn (x :: S) i := by
  rw [opsIn_cons_other _ (Ne.symm h)]

/-- The first operation is in progress: what remains to be shown is about its block. -/
theorem plan_next {k : Ctx} {x : Elem} {S : List Elem} {miss : Option Nat} {s t : St D} (h : Plan k s) (hS : k.S = x :: S) (hcur : k.cur = none) (hmiss : k.miss = none)
    (hm : miss = none ∨ miss = some x.id)
    (hops : ∀ i, opsOf t i = opsOf s i) (hne : ∀ i m, t.sched i = some m → m.ops ≠ []) (hn : t.b.n = s.b.n) (hrsv : ∀ i, i ≠ x.id → rsv t i = rsv s i)
    (hbl : ∀ i, i ≠ x.id → t.b.blocks i = s.b.blocks i) (hfe : ∀ i, i ≠ x.id → i ∈ t.freeEv → i ∈ s.freeEv) (hse : ∀ i, i ≠ x.id → i ∈ t.schedEv → i ∈ s.schedEv)
    (c1 : ∀ p, rsv t x.id = some p → (t.b.blocks x.id).int = none ∧ HasAcq S x.id)
    (c2 : HasAcq S x.id → (t.b.blocks x.id).int = none → miss ≠ some x.id → rsv t x.id ≠ none)
    (c3 : First S x.id → (t.b.blocks x.id).isInitialized = true → miss ≠ some x.id → (t.b.blocks x.id).int ≠ none)
    (c4 : x.id ∈ t.freeEv → ¬ HasAcq S x.id ∧ ((t.b.blocks x.id).dirty = true → POp.deinit ∉ opsIn S x.id))
    (c5 : x.id ∈ t.schedEv → HasAcq S x.id ∨ ((t.b.blocks x.id).dirty = true ∧ POp.deinit ∈ opsIn S x.id) ∨ shallClean (opsIn S x.id) = true) :
    Plan { S := S, cur := some x, miss := miss } t := by
  have hi : ∀ i, i ≠ x.id → opsIn S i = opsIn k.S i := fun i hi => by rw [hS]; exact opsIn_tail hi
  have hacq : ∀ i, i ≠ x.id → (HasAcq S i ↔ HasAcq k.S i) := fun i h1 => by unfold HasAcq; rw [hi i h1]
  have hfst : ∀ i, i ≠ x.id → (First S i ↔ First k.S i) := fun i h1 => by unfold First; rw [hi i h1]
  refine ⟨fun i => ?_, hne, fun y hy => ?_, fun i p h1 => ?_, fun i h1 h2 h3 => ?_, fun i h1 h2 h3 => ?_, fun i h1 => ?_, fun i h1 => ?_⟩
  · rw [hops, h.ops i, hcur, hS]
    show _ = curOps (some x) i ++ opsIn S i
    by_cases e : x.id = i
    · subst e; rw [opsIn_cons_self]; simp [curOps]
    · rw [opsIn_cons_other _ e]; simp [curOps, e]
  · rw [hn]; exact h.ids y (by rw [hS]; exact List.mem_cons_of_mem _ hy)
  · by_cases e : i = x.id
    · subst e; exact c1 p h1
    · rw [hrsv i e] at h1; rw [hbl i e]
      exact ⟨(h.rsvAcq i p h1).1, (hacq i e).2 (h.rsvAcq i p h1).2⟩
  · by_cases e : i = x.id
    · subst e; exact c2 h1 h2 h3
    · rw [hbl i e] at h2; rw [hrsv i e]
      exact h.acqRsv i ((hacq i e).1 h1) h2 (by rw [hmiss]; simp)
  · by_cases e : i = x.id
    · subst e; exact c3 h1 h2 h3
    · rw [hbl i e] at h2 ⊢
      exact h.pre i ((hfst i e).1 h1) h2 (by rw [hmiss]; simp)
  · by_cases e : i = x.id
    · subst e; exact c4 h1
    · have := h.evF i (hfe i e h1)
      rw [hbl i e]
      show ¬ HasAcq S i ∧ (_ → POp.deinit ∉ opsIn S i)
      rw [hacq i e, hi i e]; exact this
  · by_cases e : i = x.id
    · subst e; exact c5 h1
    · have := h.evS i (hse i e h1)
      rw [hbl i e]
      show HasAcq S i ∨ (_ ∧ POp.deinit ∈ opsIn S i) ∨ shallClean (opsIn S i) = true
      rw [hacq i e, hi i e]; exact this

/-- Before the first operation, if it is about another block. -/
theorem bef_next {x : Elem} {S : List Elem} : ∀ d g, d ≠ x.id → g ≠ x.id → Before (x :: S) d g → Before S d g :=
  fun d g hd _ h => h.tail fun e => absurd e.symm hd

/-- The read of `c` is done: its contents are there. -/
theorem Inv.mem_eq {dflt : D} {a : Abs D} {k : Ctx} {v : Swap.St D} {s : St D} (h : Inv dflt a k v s) {c p : Nat} (hp : (s.b.blocks c).int = some p)
    (hg : gvr s c = none) (hr : rrq s c = none) (hd : ¬ k.due c) : v.mem p = s.b.mem p := by
  refine h.view.vmN p fun i hi hrd => ?_
  have := h.int_inj hi hp; subst this
  rcases hrd with ⟨r, h1, _⟩ | ⟨_, h1 | ⟨g, w, h1, _⟩⟩
  · rw [hr] at h1; cases h1
  · exact hd h1
  · rw [hg] at h1; cases h1

/-- A stray request after the next operation on its block. -/
theorem Stray.next {k k' : Ctx} {s t : St D} {x : Elem} {S : List Elem} {w : Wrr} (h : Stray k s x.id w) (hS : k.S = x :: S) (hst : k.stop = false) (hS' : k'.S = S) (hd : ¬ k'.due x.id)
    (hop : ∀ l, shallClean (x.op :: l) = true → shallClean l = true) (hi : (t.b.blocks x.id).int ≠ none) : Stray k' t x.id w := by
  obtain ⟨h0, h1, h2, _, h4⟩ := h
  refine ⟨h0, h1, h2, hd, .inr ⟨?_, fun hc => absurd hc hi⟩⟩
  rcases h4 with h4 | ⟨h4, _⟩
  · rw [hst] at h4; cases h4
  · rw [hS, opsIn_cons_self] at h4
    rw [hS']; exact hop _ h4

theorem clean_acq {o : POp} (h : isAcq o = true) (l : List POp) (hl : shallClean (o :: l) = true) : shallClean l = true := by
  cases o <;> first | exact hl | cases h

/-- A block acquired next and idle is no giver and has no write request. -/
theorem Inv.quiet_acq {dflt : D} {a : Abs D} {k : Ctx} {v : Swap.St D} {s : St D} {x : Elem} {S : List Elem} (h : Inv dflt a k v s) (hS : k.S = x :: S) (hx : touches x.op = true)
    (hg : gvr s x.id = none) (hd : ¬ k.due x.id) : (∀ d, gvr s d ≠ some x.id) ∧ (∀ w, s.wsched x.id = some w → (s.b.blocks x.id).ext = some w.ext ∧ (s.b.blocks x.id).dirty = false ∧ Stray k s x.id w) := by
  have h1 : ∀ d, gvr s d ≠ some x.id := by
    intro d hd
    have hb := (h.io.gvrOk d x.id hd).1
    rw [hS] at hb
    have := hb.head hx
    subst this; rw [hg] at hd; cases hd
  refine ⟨h1, ?_⟩
  intro w hw
  obtain ⟨a1, a2, a3⟩ := h.io.wOk x.id w hw
  refine ⟨a1, a2, ?_⟩
  rcases a3 with ⟨_, ⟨b1, b2, b3, b4 | b4⟩ | ⟨m, b1, b2, b3, _⟩⟩ | st
  · have := b4.2.2 x.op (by rw [hS, opsIn_cons_self]; simp)
    rw [hx] at this; cases this
  · exact absurd b4.2 (h1 _)
  · exact absurd b3 (h1 _)
  · exact st

theorem touches_acq {o : POp} (h : isAcq o = true) : touches o = true := by cases o <;> first | rfl | cases h

theorem acqInt_ok (E : Env D) {dflt : D} {a : Abs D} {v : Swap.St D} {s : St D} {x : Elem} {S : List Elem} {o : Option Nat} (u : Bool)
    (h : Inv dflt a { S := x :: S, out := o } v s) (hx : isAcq x.op = true) (hg : gvr s x.id = none) (hr : rrq s x.id = none) {p : Nat} (hp : (s.b.blocks x.id).int = some p)
    (hf : x.id ∉ s.freeEv) (hse : x.id ∉ s.schedEv) (ho : (o = none ∧ 0 < (s.b.blocks x.id).refs) ∨ (o = some x.id ∧ (s.b.blocks x.id).refs = 0)) :
    ∃ v', Inv dflt (a.next (.acquire x.id u) (.data (s.b.mem p))) { S := S, cur := some x } v' (s.setBlk x.id { s.b.blocks x.id with refs := (s.b.blocks x.id).refs + 1 }) ∧
      Expected dflt a (.acquire x.id u) (.data (s.b.mem p)) := by
  have hpv : (v.blocks x.id).int = some p := by rw [h.base.blocks]; exact hp
  have hid : x.id < v.n := (h.sw.core.att _ p hpv).1
  have hmem := h.mem_eq hp hg hr (fun hc => hc)
  obtain ⟨r, v1, g1, g2, g3⟩ := Swap.acquire_internal E h.sw x.id u hid p hpv
  obtain ⟨q1, q2⟩ := h.quiet_acq rfl (touches_acq hx) hg (fun hc => hc)
  have hbx : v.blocks x.id = s.b.blocks x.id := by rw [h.base.blocks]
  have hv1 : r = .data (v.mem p) ∧ v1 = ({ v with evict := if 0 < (s.b.blocks x.id).refs then v.evict else Swap.eraseEvict v.evict x.id }).set x.id { s.b.blocks x.id with refs := (s.b.blocks x.id).refs + 1 } := by
    rw [← hbx]
    simp only [Swap.step, Swap.acquire, Nat.not_le.2 hid, if_false, hpv, SB.isAcquired, Option.map_some, Option.some.injEq, Prod.mk.injEq] at g1
    rw [← g1.1, ← g1.2]
    by_cases hz : 0 < (v.blocks x.id).refs
    · simp only [hz, decide_true, if_true]; rw [← hpv]; exact ⟨rfl, rfl⟩
    · simp only [hz, decide_false, if_false, Bool.false_eq_true]; rw [← hpv]; exact ⟨rfl, rfl⟩
  obtain ⟨rfl, hv1⟩ := hv1
  rw [hmem] at g2 g3
  refine ⟨v1, ?_, g2⟩
  generalize ht : s.setBlk x.id { s.b.blocks x.id with refs := (s.b.blocks x.id).refs + 1 } = t
  have tsame : t.b.blocks x.id = { s.b.blocks x.id with refs := (s.b.blocks x.id).refs + 1 } := by rw [← ht]; simp
  have toth : ∀ i, i ≠ x.id → t.b.blocks i = s.b.blocks i := fun i hi => by rw [← ht]; exact setBlk_b_other _ _ hi
  have trsv : ∀ i, rsv t i = rsv s i := fun i => by rw [← ht]; rfl
  have tf : t.freeEv = s.freeEv := by rw [← ht]; rfl
  have tse : t.schedEv = s.schedEv := by rw [← ht]; rfl
  have hT : Touched s t x.id := ⟨by rw [← ht]; rfl, by rw [← ht]; rfl, by rw [← ht]; rfl, by rw [← ht]; rfl, fun i => by rw [← ht]; rfl, fun i => by rw [← ht]; rfl, fun i _ => trsv i, toth, by rw [← ht]; rfl⟩
  refine touch_ok h hT hr (fun w hw => by
    obtain ⟨a1, a2, st⟩ := q2 w hw
    exact ⟨by rw [tsame]; exact a1, by rw [tsame]; exact a2, st.next rfl rfl rfl (fun hc => hc) (clean_acq hx) (by rw [tsame]; rw [hp]; simp)⟩) rfl
    (fun d hd => absurd hd (q1 d)) (fun i hc => hc) (fun i hc => hc) (fun g hc => by rw [hg] at hc; cases hc) (fun i hi => opsIn_tail hi) bef_next g3 ?_ ?_ (by rw [hv1]; rfl)
    (fun p => .inl ⟨by rw [hv1]; rfl, by rw [← ht]; rfl⟩)
  · refine ⟨?_, by rw [hv1, ← ht]; exact h.base.n, by rw [hv1, ← ht]; exact h.base.held, by rw [hv1, ← ht]; exact h.base.next, by rw [hv1, ← ht]; exact h.base.remaining,
      by rw [hv1, ← ht]; exact h.base.max, fun q => ?_, by rw [← ht]; exact h.base.freeNd, fun i q => ?_, by simp only [trsv]; exact h.base.rsvInj, fun i => ?_, by rw [tf, tse]; exact h.base.disj⟩
    · funext i
      rw [hv1]
      by_cases e : i = x.id
      · subst e; rw [Swap.set_same, tsame]
      · rw [Swap.set_other _ _ e, toth i e]; show v.blocks i = _; rw [h.base.blocks]
    · simp only [trsv]; rw [hv1, ← ht]; exact h.base.vfree q
    · rw [trsv, ← ht]; exact h.base.rsvFree i q
    · rw [hv1, tf, tse]
      show i ∈ (if 0 < (s.b.blocks x.id).refs then v.evict else Swap.eraseEvict v.evict x.id).map (·.2) ↔ _
      have hvev := h.base.vev i
      rcases ho with ⟨rfl, ho⟩ | ⟨rfl, ho⟩
      · rw [if_pos ho]; exact hvev
      · rw [if_neg (by omega), Swap.erase_ids, hvev]
        simp only [Option.some.injEq, reduceCtorEq, or_false]
        constructor
        · rintro ⟨h1 | h1 | h1, h2⟩
          · exact .inl h1
          · exact .inr h1
          · exact absurd h1.symm h2
        · rintro (h1 | h1)
          · exact ⟨.inl h1, by rintro rfl; exact hf h1⟩
          · exact ⟨.inr (.inl h1), by rintro rfl; exact hse h1⟩
  · refine plan_next h.plan rfl rfl rfl (.inl rfl) (fun i => by rw [← ht]; rfl) (by rw [← ht]; exact h.plan.opsNe) (by rw [← ht]; rfl) (fun i _ => trsv i) toth
      (fun i _ => by rw [tf]; exact id) (fun i _ => by rw [tse]; exact id) ?_ ?_ ?_ ?_ ?_
    · intro q hq; rw [trsv] at hq; rw [(h.plan.rsvAcq _ q hq).1] at hp; cases hp
    · intro _ h2; rw [tsame] at h2; simp only [hp] at h2; cases h2
    · intro _ _ _; rw [tsame]; simp [hp]
    · intro h1; rw [tf] at h1; exact absurd h1 hf
    · intro h1; rw [tse] at h1; exact absurd h1 hse

/-- The state after `acquire` of a block with a reserved internal block. -/
def taken (E : Env D) (s : St D) (c p : Nat) (m : Meta) (u : Bool) : St D :=
  let s2 := s.setMeta c (some { m with reserved := none })
  let s3 := s2.setBlk c { s2.blk c with int := some p }
  let s4 := if u then s3 else { s3 with b := { s3.b with mem := fun q => if q = p then E.fill (s3.b.mem p) else s3.b.mem q } }
  s4.setBlk c { s4.blk c with refs := (s4.blk c).refs + 1 }

theorem acqRsv_ok (E : Env D) (hE : ∀ l, E.pick l ∉ l) {dflt : D} (hfill : ∀ d, E.fill d = dflt) {a : Abs D} {v : Swap.St D} {s : St D} {x : Elem} {S : List Elem} (u : Bool)
    (h : Inv dflt a { S := x :: S } v s) (hx : x.op = if u then .acquireUninit else .acquire) (hg : gvr s x.id = none) (hi : (s.b.blocks x.id).int = none) {p : Nat} {m : Meta}
    (hm : s.sched x.id = some m) (hp : m.reserved = some p) (hini : u = true ∨ (s.b.blocks x.id).isInitialized = false) :
    ∃ v', Inv dflt (a.next (.acquire x.id u) (.data ((taken E s x.id p m u).b.mem p))) { S := S, cur := some x } v' (taken E s x.id p m u) ∧
      Expected dflt a (.acquire x.id u) (.data ((taken E s x.id p m u).b.mem p)) := by
  have hxa : isAcq x.op = true := by rw [hx]; cases u <;> rfl
  have hrp : rsv s x.id = some p := by rw [rsv_of hm]; exact hp
  have hiv : (v.blocks x.id).int = none := by rw [h.base.blocks]; exact hi
  have hid : x.id < v.n := by rw [h.base.n]; exact (h.plan.ids x (by simp))
  have hr : rrq s x.id = none := by
    cases hz : rrq s x.id with
    | none => rfl
    | some r => exact absurd hi (h.io.rrqOk _ r hz).1
  obtain ⟨q1, q2⟩ := h.quiet_acq rfl (touches_acq hxa) hg (fun hc => hc)
  have hpf : p ∈ v.free := (h.base.vfree p).2 (.inr ⟨_, hrp⟩)
  have hnd := h.sw.core.freeNd
  have hdy : (s.b.blocks x.id).dirty = false := by
    cases hz : (s.b.blocks x.id).dirty with
    | false => rfl
    | true => exact absurd hiv (h.sw.core.dirtyInt x.id (by rw [h.base.blocks]; exact hz))
  have hrf : (s.b.blocks x.id).refs = 0 := by
    cases hz : (s.b.blocks x.id).refs with
    | zero => rfl
    | succ z => exact absurd hiv (h.sw.core.refsInt x.id (by rw [h.base.blocks, hz]; omega))
  have hmp : v.mem p = s.b.mem p := h.view.vmN p fun i hi _ => h.int_rsv hi hrp
  -- the free block is the first one
  have hsw2 : Swap.Inv dflt { v with free := p :: v.free.erase p } a := by
    refine h.sw.same rfl rfl rfl rfl rfl rfl (fun q => ?_) ?_ (fun _ => Iff.rfl) h.sw.ev.nd (fun _ _ _ => rfl) (fun _ => rfl)
    · show q ∈ p :: v.free.erase p ↔ _
      rw [List.mem_cons, hnd.mem_erase_iff]
      constructor
      · rintro (rfl | h1)
        · exact hpf
        · exact h1.2
      · intro h1
        by_cases e : q = p
        · exact .inl e
        · exact .inr ⟨e, h1⟩
    · show (p :: v.free.erase p).Nodup
      rw [List.nodup_cons]
      exact ⟨fun hc => (hnd.mem_erase_iff.1 hc).1 rfl, hnd.erase p⟩
  rcases Swap.acquire_external E hE hfill hsw2 x.id u hid hiv with ⟨_, g, _⟩ | ⟨r, v1, g1, g2, g3⟩
  · cases g
  have hv1 : r = .data (v1.mem p) ∧ v1 = Swap.bringIn E { v with free := v.free.erase p } x.id u p := by
    simp only [Swap.step, Swap.acquire, Nat.not_le.2 hid, if_false, hiv, Swap.getFree, Swap.getFreeBs, Option.map_some, Option.some.injEq, Prod.mk.injEq] at g1
    rw [← g1.1, ← g1.2]; exact ⟨rfl, rfl⟩
  obtain ⟨rfl, hv1⟩ := hv1
  generalize ht : taken E s x.id p m u = t
  have tsame : t.b.blocks x.id = { s.b.blocks x.id with int := some p, refs := 1 } := by
    rw [← ht]; cases u <;> simp [taken, St.setBlk, St.blk, St.setMeta, Swap.St.set, hrf]
  have toth : ∀ i, i ≠ x.id → t.b.blocks i = s.b.blocks i := fun i hi => by
    rw [← ht]; cases u <;> simp [taken, St.setBlk, St.blk, St.setMeta, Swap.St.set, hi]
  have tsched : t.sched = put s.sched x.id (some { m with reserved := none }) := by
    rw [← ht]; cases u <;> rfl
  have trsv0 : rsv t x.id = none := by unfold rsv; rw [tsched, put_same]; rfl
  have trsv : ∀ i, i ≠ x.id → rsv t i = rsv s i := fun i hi => by unfold rsv; rw [tsched, put_other _ _ hi]
  have tf : t.freeEv = s.freeEv := by rw [← ht]; cases u <;> rfl
  have tse : t.schedEv = s.schedEv := by rw [← ht]; cases u <;> rfl
  have tfree : t.b.free = s.b.free := by rw [← ht]; cases u <;> rfl
  have tmem : ∀ q, q ≠ p → t.b.mem q = s.b.mem q := fun q hq => by
    rw [← ht]; cases u <;> simp [taken, St.setBlk, St.blk, St.setMeta, Swap.St.set, hq]
  have tmemp : t.b.mem p = if u then s.b.mem p else E.fill (s.b.mem p) := by
    rw [← ht]; cases u <;> simp [taken, St.setBlk, St.blk, St.setMeta, Swap.St.set]
  have vmem : ∀ q, q ≠ p → v1.mem q = v.mem q := fun q hq => by rw [hv1]; simp [Swap.bringIn, hq]
  have vmemp : v1.mem p = t.b.mem p := by
    rw [hv1, tmemp]
    simp only [Swap.bringIn, if_true, h.base.blocks, hmp]
    cases u with
    | true => rfl
    | false =>
      have : (s.b.blocks x.id).isInitialized = false := by simpa using hini
      simp [this]
  rw [vmemp] at g2 g3
  refine ⟨v1, ?_, g2⟩
  have hT : Touched s t x.id := by
    refine ⟨by rw [← ht]; cases u <;> rfl, by rw [← ht]; cases u <;> rfl, by rw [← ht]; cases u <;> rfl, by rw [← ht]; cases u <;> rfl, fun i => ?_, fun i => ?_, trsv, toth, by rw [← ht]; cases u <;> rfl⟩
    · unfold gvr; rw [tsched]; by_cases e : i = x.id
      · subst e; rw [put_same, hm]; rfl
      · rw [put_other _ _ e]
    · unfold rrq; rw [tsched]; by_cases e : i = x.id
      · subst e; rw [put_same, hm]; rfl
      · rw [put_other _ _ e]
  have hnc : ∀ i, i ≠ x.id → bufOf s i ≠ some p := by
    intro i hi hb
    unfold bufOf at hb
    cases hz : (s.b.blocks i).int with
    | some q => rw [hz] at hb; cases hb; exact h.int_rsv hz hrp
    | none => rw [hz] at hb; exact hi (h.base.rsvInj i x.id p hb hrp)
  refine touch_ok h hT hr (fun w hw => by
    obtain ⟨a1, a2, st⟩ := q2 w hw
    exact ⟨by rw [tsame]; exact a1, by rw [tsame]; exact a2, st.next rfl rfl rfl (fun hc => hc) (clean_acq hxa) (by rw [tsame]; simp)⟩) rfl
    (fun d hd => absurd hd (q1 d)) (fun i hc => hc) (fun i hc => hc) (fun g hc => by rw [hg] at hc; cases hc) (fun i hi => opsIn_tail hi) bef_next g3 ?_ ?_ (by rw [hv1]; rfl) (fun q => ?_)
  · have vb : ∀ i, v1.blocks i = t.b.blocks i := by
      intro i
      by_cases e : i = x.id
      · subst e
        rw [hv1, tsame]
        simp only [Swap.bringIn, Swap.St.set, if_true, h.base.blocks, hrf, hdy]
        simp only [ite_self, Nat.zero_add]
      · rw [toth i e, hv1, ← h.base.blocks]; simp [Swap.bringIn, Swap.St.set, e]
    refine ⟨funext vb, by rw [hv1, ← ht]; cases u <;> exact h.base.n, by rw [hv1, ← ht]; cases u <;> exact h.base.held, by rw [hv1, ← ht]; cases u <;> exact h.base.next,
      by rw [hv1, ← ht]; cases u <;> exact h.base.remaining, by rw [hv1, ← ht]; cases u <;> exact h.base.max, fun q => ?_, by rw [tfree]; exact h.base.freeNd, fun i q hq => ?_, fun i j q h1 h2 => ?_, fun i => ?_,
      by rw [tf, tse]; exact h.base.disj⟩
    · rw [hv1, tfree]
      show q ∈ v.free.erase p ↔ _
      rw [hnd.mem_erase_iff, h.base.vfree q]
      constructor
      · rintro ⟨h1, h2 | ⟨i, h2⟩⟩
        · exact .inl h2
        · refine .inr ⟨i, ?_⟩
          rw [trsv i ?_]
          · exact h2
          · rintro rfl; rw [hrp] at h2; cases h2; exact h1 rfl
      · rintro (h2 | ⟨i, h2⟩)
        · exact ⟨by rintro rfl; exact h.base.rsvFree _ _ hrp h2, .inl h2⟩
        · have hne : i ≠ x.id := by rintro rfl; rw [trsv0] at h2; cases h2
          rw [trsv i hne] at h2
          exact ⟨by rintro rfl; exact hne (h.base.rsvInj i x.id q h2 hrp), .inr ⟨i, h2⟩⟩
    · have hne : i ≠ x.id := by rintro rfl; rw [trsv0] at hq; cases hq
      rw [trsv i hne] at hq; rw [tfree]; exact h.base.rsvFree i q hq
    · have hne1 : i ≠ x.id := by rintro rfl; rw [trsv0] at h1; cases h1
      have hne2 : j ≠ x.id := by rintro rfl; rw [trsv0] at h2; cases h2
      rw [trsv i hne1] at h1; rw [trsv j hne2] at h2; exact h.base.rsvInj i j q h1 h2
    · rw [hv1, tf, tse]; exact h.base.vev i
  · refine plan_next h.plan rfl rfl rfl (.inl rfl) (fun i => ?_) (fun i m' hm' => ?_) (by rw [← ht]; cases u <;> rfl) trsv toth
      (fun i _ => by rw [tf]; exact id) (fun i _ => by rw [tse]; exact id) ?_ ?_ ?_ ?_ ?_
    · unfold opsOf; rw [tsched]; by_cases e : i = x.id
      · subst e; rw [put_same, hm]; rfl
      · rw [put_other _ _ e]
    · rw [tsched] at hm'
      by_cases e : i = x.id
      · subst e; rw [put_same] at hm'; cases hm'; exact h.plan.opsNe _ m hm
      · rw [put_other _ _ e] at hm'; exact h.plan.opsNe i m' hm'
    · intro q hq; rw [trsv0] at hq; cases hq
    · intro _ h2; rw [tsame] at h2; cases h2
    · intro _ _ _; rw [tsame]; simp
    · intro h1; rw [tf] at h1
      obtain ⟨⟨q, hq⟩, _⟩ := h.ev_facts (.inl h1); rw [hi] at hq; cases hq
    · intro h1; rw [tse] at h1
      obtain ⟨⟨q, hq⟩, _⟩ := h.ev_facts (.inr (.inl h1)); rw [hi] at hq; cases hq
  · by_cases e : q = p
    · subst e
      refine .inr ⟨vmemp, fun i hi' => ?_⟩
      rcases hi' with hi' | hi'
      · exact hnc i hi'
      · exact absurd hg hi'
    · exact .inl ⟨vmem q e, tmem q e⟩

end Foxxll.Ahead
