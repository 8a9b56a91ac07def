import Verif.Proofs.AheadSched

set_option linter.unusedSimpArgs false
set_option linter.unusedVariables false
set_option linter.unusedSectionVars false

/-
offline_lru_prefetching: `schedule_next_operations`.
-/
namespace Foxxll.Ahead
open Foxxll.Swap (SB Env POp Elem Op Res Abs Allowed Expected)

variable {D : Type} [Slack D]

theorem hasAcq_append {S : List Elem} {x : Elem} {i : Nat} : HasAcq (S ++ [x]) i ↔ HasAcq S i ∨ (x.id = i ∧ isAcq x.op = true) := by
  rw [hasAcq_iff, hasAcq_iff]
  constructor
  · rintro ⟨y, hy, h1⟩
    rcases List.mem_append.1 hy with hy | hy
    · exact .inl ⟨y, hy, h1⟩
    · rw [List.mem_singleton] at hy; subst hy; exact .inr h1
  · rintro (⟨y, hy, h1⟩ | h1)
    · exact ⟨y, by simp [hy], h1⟩
    · exact ⟨x, by simp, h1⟩

theorem opsIn_last (S : List Elem) (x : Elem) (i : Nat) : opsIn (S ++ [x]) i = if x.id = i then opsIn S i ++ [x.op] else opsIn S i := by
  rw [opsIn_append]
  by_cases h : x.id = i
  · rw [if_pos h]; simp [opsIn, h]
  · rw [if_neg h]; simp [opsIn, h]

theorem first_append {S : List Elem} {x : Elem} {i : Nat} (h : First (S ++ [x]) i) : First S i ∨ (x.id = i ∧ x.op = .acquire ∧ opsIn S i = []) := by
  unfold First at h ⊢
  rw [opsIn_last] at h
  by_cases e : x.id = i
  · rw [if_pos e] at h
    cases hz : opsIn S i with
    | nil => rw [hz] at h; simp at h; exact .inr ⟨e, h, rfl⟩
    | cons y l => rw [hz] at h; left; exact h
  · rw [if_neg e] at h; exact .inl h

theorem listOp_facts (s : St D) (x : Elem) :
    (listOp s x).b = s.b ∧ (listOp s x).wsched = s.wsched ∧ (listOp s x).reads = s.reads ∧ (listOp s x).reqs = s.reqs ∧ (listOp s x).next = s.next ∧ (listOp s x).pred = s.pred ∧
    (listOp s x).freeEv = s.freeEv ∧ (listOp s x).schedEv = s.schedEv ∧
    (∀ i, rsv (listOp s x) i = rsv s i) ∧ (∀ i, gvr (listOp s x) i = gvr s i) ∧ (∀ i, rrq (listOp s x) i = rrq s i) ∧
    (∀ i, opsOf (listOp s x) i = if x.id = i then opsOf s i ++ [x.op] else opsOf s i) ∧
    (∀ i m, (listOp s x).sched i = some m → m.ops ≠ [] ∨ s.sched i = some m) := by
  unfold listOp
  cases hm : s.sched x.id with
  | none =>
    simp only
    refine ⟨rfl, rfl, rfl, rfl, rfl, rfl, rfl, rfl, fun i => ?_, fun i => ?_, fun i => ?_, fun i => ?_, fun i m h => ?_⟩
    · rw [rsv_setMeta]; split
      · rename_i e; subst e; simp [rsv, hm]
      · rfl
    · rw [gvr_setMeta]; split
      · rename_i e; subst e; simp [gvr, hm]
      · rfl
    · rw [rrq_setMeta]; split
      · rename_i e; subst e; simp [rrq, hm]
      · rfl
    · rw [opsOf_setMeta]
      by_cases e : i = x.id
      · subst e; simp [opsOf, hm]
      · rw [if_neg e, if_neg (Ne.symm e)]
    · by_cases e : i = x.id
      · subst e; rw [setMeta_same] at h; cases h; left; simp
      · rw [setMeta_other _ _ e] at h; exact .inr h
  | some m0 =>
    simp only
    refine ⟨rfl, rfl, rfl, rfl, rfl, rfl, rfl, rfl, fun i => ?_, fun i => ?_, fun i => ?_, fun i => ?_, fun i m h => ?_⟩
    · rw [rsv_setMeta]; split
      · rename_i e; subst e; simp [rsv, hm]
      · rfl
    · rw [gvr_setMeta]; split
      · rename_i e; subst e; simp [gvr, hm]
      · rfl
    · rw [rrq_setMeta]; split
      · rename_i e; subst e; simp [rrq, hm]
      · rfl
    · rw [opsOf_setMeta]
      by_cases e : i = x.id
      · subst e; simp [opsOf, hm]
      · rw [if_neg e, if_neg (Ne.symm e)]
    · by_cases e : i = x.id
      · subst e; rw [setMeta_same] at h; cases h; left; simp
      · rw [setMeta_other _ _ e] at h; exact .inr h

theorem unlist_list {s : St D} {x : Elem} (h : ∀ m, s.sched x.id = some m → m.ops ≠ []) : unlistOp (listOp s x) x = s := by
  have key : ∀ m m0, s.sched x.id = m0 → ((s.setMeta x.id m).setMeta x.id m0) = s := by
    intro m m0 h0
    have : put (put s.sched x.id m) x.id m0 = s.sched := by
      funext j
      by_cases e : j = x.id
      · subst e; rw [put_same, h0]
      · rw [put_other _ _ e, put_other _ _ e]
    show ({ s with sched := put (put s.sched x.id m) x.id m0 } : St D) = s
    rw [this]
  unfold listOp unlistOp
  cases hm : s.sched x.id with
  | none =>
    simp only [setMeta_same]
    exact key _ _ hm
  | some m =>
    simp only [setMeta_same]
    have hne := h m hm
    rw [if_neg]
    · have : ({ m with ops := (m.ops ++ [x.op]).dropLast } : Meta) = m := by rw [List.dropLast_concat]
      rw [this]; exact key _ _ hm
    · rw [List.length_append]
      cases hz : m.ops with
      | nil => exact absurd hz hne
      | cons y l => simp

theorem list_ok {dflt : D} {a : Abs D} {k : Ctx} {v : Swap.St D} {s : St D} (h : Inv dflt a k v s) (hn : s.next ≠ []) (x : Elem) (hx : x.id < s.b.n)
    (hmiss : k.miss = none) (fe se : List Nat) (miss : Option Nat)
    (hu : ∀ i, (i ∈ fe ∨ i ∈ se) ↔ (i ∈ s.freeEv ∨ i ∈ s.schedEv)) (hdj : ∀ i, i ∈ fe → i ∉ se)
    (hF : ∀ i, i ∈ fe → ¬ HasAcq (k.S ++ [x]) i ∧ ((s.b.blocks i).dirty = true → POp.deinit ∉ opsIn (k.S ++ [x]) i))
    (hS : ∀ i, i ∈ se → HasAcq (k.S ++ [x]) i ∨ ((s.b.blocks i).dirty = true ∧ POp.deinit ∈ opsIn (k.S ++ [x]) i) ∨ shallClean (opsIn (k.S ++ [x]) i) = true)
    (hm : isAcq x.op = true → (s.b.blocks x.id).int = none → rsv s x.id = none → miss = some x.id) :
    Inv dflt a { k with S := k.S ++ [x], miss := miss } v { listOp s x with freeEv := fe, schedEv := se } := by
  obtain ⟨f1, f2, f3, f4, f5, f6, f7, f8, f9, f10, f11, f12, f13⟩ := listOp_facts s x
  generalize ht : ({ listOp s x with freeEv := fe, schedEv := se } : St D) = t
  have tb : t.b = s.b := by rw [← ht]; exact f1
  have tw : t.wsched = s.wsched := by rw [← ht]; exact f2
  have treads : t.reads = s.reads := by rw [← ht]; exact f3
  have treqs : t.reqs = s.reqs := by rw [← ht]; exact f4
  have trsv : ∀ i, rsv t i = rsv s i := fun i => by rw [← ht]; exact f9 i
  have tgvr : ∀ i, gvr t i = gvr s i := fun i => by rw [← ht]; exact f10 i
  have trrq : ∀ i, rrq t i = rrq s i := fun i => by rw [← ht]; exact f11 i
  have tbuf : ∀ i, bufOf t i = bufOf s i := fun i => by unfold bufOf; rw [tb, trsv]
  have hacq : ∀ i, HasAcq k.S i → HasAcq (k.S ++ [x]) i := fun i hi => hi.mono [x]
  have hfst : ∀ i, First k.S i → First (k.S ++ [x]) i := fun i hi => hi.mono [x]
  have hrd : ∀ i, Rdg { k with S := k.S ++ [x], miss := miss } t i ↔ Rdg k s i := by
    intro i; unfold Rdg; rw [trrq, tgvr, treads, tw]
  refine ⟨h.sw, ?_, ?_, ?_, ?_⟩
  · refine ⟨by rw [tb]; exact h.base.blocks, by rw [tb]; exact h.base.n, by rw [tb]; exact h.base.held, by rw [tb]; exact h.base.next, by rw [tb]; exact h.base.remaining,
      by rw [tb]; exact h.base.max, by simp only [tb, trsv]; exact h.base.vfree, by rw [tb]; exact h.base.freeNd, by simp only [tb, trsv]; exact h.base.rsvFree,
      by simp only [trsv]; exact h.base.rsvInj, fun i => ?_, by rw [← ht]; exact hdj⟩
    rw [h.base.vev i, ← ht]
    show _ ↔ i ∈ fe ∨ i ∈ se ∨ k.out = some i
    rw [← or_assoc, ← or_assoc, hu i]
  · refine ⟨fun c => ?_, fun c m hc => ?_, fun y hy => ?_, fun c p hc => ?_, fun c h1 h2 h3 => ?_, fun c h1 h2 h3 => ?_, by rw [tb, ← ht]; exact hF, by rw [tb, ← ht]; exact hS⟩
    · show opsOf t c = curOps k.cur c ++ opsIn (k.S ++ [x]) c
      rw [← ht]
      show opsOf (listOp s x) c = _
      rw [f12, opsIn_last, h.plan.ops c]
      split
      · rw [List.append_assoc]
      · rfl
    · rw [← ht] at hc
      rcases f13 c m hc with h1 | h1
      · exact h1
      · exact h.plan.opsNe c m h1
    · rw [tb]
      rcases List.mem_append.1 hy with hy | hy
      · exact h.plan.ids y hy
      · rw [List.mem_singleton] at hy; subst hy; exact hx
    · rw [trsv] at hc; rw [tb]
      exact ⟨(h.plan.rsvAcq c p hc).1, hacq c (h.plan.rsvAcq c p hc).2⟩
    · rw [tb] at h2; rw [trsv]
      intro hr
      rcases hasAcq_append.1 h1 with h4 | ⟨rfl, h4⟩
      · exact h.plan.acqRsv c h4 h2 (by rw [hmiss]; simp) hr
      · exact h3 (hm h4 h2 hr)
    · rw [tb] at h2 ⊢
      rcases first_append h1 with h4 | ⟨rfl, h4, h5⟩
      · exact h.plan.pre c h4 h2 (by rw [hmiss]; simp)
      · intro hi
        refine h3 (hm (by rw [h4]; rfl) hi ?_)
        cases hz : rsv s x.id with
        | none => rfl
        | some p =>
          obtain ⟨o, ho, _⟩ := (h.plan.rsvAcq x.id p hz).2
          rw [h5] at ho; cases ho
  · refine ⟨fun c r hc => ?_, by simp only [trrq]; exact h.io.rrqInj, by simp only [trrq, tgvr, tw]; exact h.io.rrqW, by simp only [treads, trrq, tb]; exact h.io.rdOk,
      by rw [treads]; exact h.io.rdNd, fun c g hc => ?_, by simp only [tgvr, tw]; exact h.io.gvrW, fun g w hw => ?_, fun c hc => ?_⟩
    · rw [trrq] at hc; rw [tb, tw, treqs]
      obtain ⟨a1, a2, a3, a4, a5, a6⟩ := h.io.rrqOk c r hc
      exact ⟨a1, a2, a3, a4, hfst c a5, a6⟩
    · rw [tgvr] at hc; rw [tb, trsv]
      obtain ⟨a1, a2, a3, a5⟩ := h.io.gvrOk c g hc
      exact ⟨a1.mono [x], a2, a3, a5.imp id fun z => ⟨z.1, z.2.1, hfst c z.2.2⟩⟩
    · rw [tw] at hw; rw [tb]
      obtain ⟨a1, a2, ⟨a3, a4⟩ | a4⟩ := h.io.wOk g w hw
      case inr => exact ⟨a1, a2, .inr (a4.of rfl rfl id rfl ⟨opsIn [x] g, opsIn_append _ _ _⟩ (by rw [tb]; exact .inl))⟩
      refine ⟨a1, a2, .inl ⟨a3, ?_⟩⟩
      unfold Holder at a4 ⊢
      simp only [tb, tgvr, tw, trrq, tbuf]
      rcases a4 with ⟨b1, b2, b3, b4⟩ | a4
      · refine .inl ⟨b1, b2, b3, .inr ?_⟩
        rcases b4 with b4 | b4
        · exact absurd b4.2.1 hn
        · exact b4
      · exact .inr a4
    · rw [tb]
      obtain ⟨a1, a2, a3, a4, a5⟩ := h.io.dueOk c hc
      exact ⟨a1, a2, a3, a4, hfst c a5⟩
  · refine ⟨by simp only [tw, trrq, tb]; exact h.view.intact, by simp only [tw, tb]; exact h.view.vdN, by simp only [tb, hrd]; exact h.view.vmR, by simp only [tb, hrd]; exact h.view.vmN⟩

theorem Inv.dropMiss {dflt : D} {a : Abs D} {k : Ctx} {v : Swap.St D} {s : St D} (h : Inv dflt a k v s)
    (hm : ∀ c, k.miss = some c → (HasAcq k.S c → (s.b.blocks c).int = none → rsv s c ≠ none) ∧ (First k.S c → (s.b.blocks c).isInitialized = true → (s.b.blocks c).int ≠ none)) :
    Inv dflt a { k with miss := none } v s := by
  refine ⟨h.sw, ⟨h.base.blocks, h.base.n, h.base.held, h.base.next, h.base.remaining, h.base.max, h.base.vfree, h.base.freeNd, h.base.rsvFree, h.base.rsvInj, h.base.vev, h.base.disj⟩,
    ⟨h.plan.ops, h.plan.opsNe, h.plan.ids, h.plan.rsvAcq, fun c h1 h2 _ => ?_, fun c h1 h2 _ => ?_, h.plan.evF, h.plan.evS⟩,
    ⟨h.io.rrqOk, h.io.rrqInj, h.io.rrqW, h.io.rdOk, h.io.rdNd, h.io.gvrOk, h.io.gvrW, h.io.wOk, h.io.dueOk⟩, ⟨h.view.intact, h.view.vdN, h.view.vmR, h.view.vmN⟩⟩
  · by_cases e : k.miss = some c
    · exact (hm c e).1 h1 h2
    · exact h.plan.acqRsv c h1 h2 e
  · by_cases e : k.miss = some c
    · exact (hm c e).2 h1 h2
    · exact h.plan.pre c h1 h2 e

theorem evF_last {S : List Elem} {x : Elem} {i : Nat} {d : Bool} (h : ¬ HasAcq S i ∧ (d = true → POp.deinit ∉ opsIn S i)) (h1 : x.id = i → isAcq x.op = false ∧ (d = true → x.op ≠ .deinit)) :
    ¬ HasAcq (S ++ [x]) i ∧ (d = true → POp.deinit ∉ opsIn (S ++ [x]) i) := by
  constructor
  · rw [hasAcq_append]
    rintro (h2 | ⟨h2, h3⟩)
    · exact h.1 h2
    · rw [(h1 h2).1] at h3; cases h3
  · intro hd
    rw [opsIn_last]
    split
    · rename_i e
      rw [List.mem_append, List.mem_singleton]
      rintro (h2 | h2)
      · exact h.2 hd h2
      · exact (h1 e).2 hd h2.symm
    · exact h.2 hd

theorem evS_last {S : List Elem} {x : Elem} {i : Nat} {d : Bool} (h : HasAcq S i ∨ (d = true ∧ POp.deinit ∈ opsIn S i) ∨ shallClean (opsIn S i) = true) :
    HasAcq (S ++ [x]) i ∨ (d = true ∧ POp.deinit ∈ opsIn (S ++ [x]) i) ∨ shallClean (opsIn (S ++ [x]) i) = true := by
  rw [opsIn_append]
  exact h.imp (fun h => h.mono [x]) fun h => h.imp (fun h => ⟨h.1, List.mem_append.2 (.inl h.2)⟩) fun h => shallClean_append h _

theorem FrS.listOp (s : St D) (x : Elem) : FrS s (listOp s x) := by
  obtain ⟨f1, f2, f3, f4, f5, f6, f7, f8, f9, f10, f11, f12, f13⟩ := listOp_facts s x
  exact ⟨by rw [f1], by rw [f1], by rw [f1], by rw [f1], fun _ => by rw [f1], fun _ => by rw [f1], f6, by rw [f1]; exact fun h1 h2 => ⟨h1, h2⟩, by rw [f7]; exact fun _ h => h⟩

theorem St.lists_same (s : St D) : ({ s with freeEv := s.freeEv, schedEv := s.schedEv } : St D) = s := rfl

/-- 1554-1608 -/
theorem scheduleAcquire_ok (E : Env D) (hE : ∀ l, E.pick l ∉ l) {dflt : D} {a : Abs D} {k : Ctx} {v : Swap.St D} {s : St D} (h : Inv dflt a k v s) (hs : Sch k s) (hn : s.next ≠ [])
    (hmiss : k.miss = none) (x : Elem) (hx : x.id < s.b.n) (hxa : isAcq x.op = true) :
    ∃ b s', scheduleAcquire E (listOp s x) x.id = some (b, s') ∧
      (b = true → (∃ v', Inv dflt a { k with S := k.S ++ [x] } v' s') ∧ FrS s s' ∧ s'.next = s.next) ∧
      (b = false → s' = listOp s x ∧ (s.b.blocks x.id).int = none ∧ rsv s x.id = none ∧ s.b.free = [] ∧ s.b.remaining = 0 ∧ s.freeEv = []) := by
  obtain ⟨f1, f2, f3, f4, f5, f6, f7, f8, f9, f10, f11, f12, f13⟩ := listOp_facts s x
  have kmiss : ∀ S, ({ k with S := S, miss := none } : Ctx) = { k with S := S } := by
    intro S; rw [← hmiss]
  have hevS : ∀ i, i ∈ s.schedEv → HasAcq (k.S ++ [x]) i ∨ ((s.b.blocks i).dirty = true ∧ POp.deinit ∈ opsIn (k.S ++ [x]) i) ∨ shallClean (opsIn (k.S ++ [x]) i) = true := fun i hi => evS_last (h.plan.evS i hi)
  have hevF : ∀ i, i ∈ s.freeEv → i ≠ x.id → ¬ HasAcq (k.S ++ [x]) i ∧ ((s.b.blocks i).dirty = true → POp.deinit ∉ opsIn (k.S ++ [x]) i) :=
    fun i hi hne => evF_last (h.plan.evF i hi) fun e => absurd e.symm hne
  have hacq : HasAcq (k.S ++ [x]) x.id := hasAcq_append.2 (.inr ⟨rfl, hxa⟩)
  unfold scheduleAcquire
  by_cases hi : (s.b.blocks x.id).int = none
  · have hint : ((listOp s x).blk x.id).isInternal = false := by
      simp only [St.blk, f1, SB.isInternal, hi]; rfl
    rw [hint]
    simp only [Bool.false_eq_true, if_false]
    have hnf : x.id ∉ s.freeEv := by
      intro hc
      obtain ⟨⟨p, hp⟩, _⟩ := h.ev_facts (.inl hc)
      rw [hi] at hp; cases hp
    have hF : ∀ i, i ∈ s.freeEv → ¬ HasAcq (k.S ++ [x]) i ∧ ((s.b.blocks i).dirty = true → POp.deinit ∉ opsIn (k.S ++ [x]) i) :=
      fun i hi => hevF i hi (by rintro rfl; exact hnf hi)
    have e7 : ({ listOp s x with freeEv := s.freeEv, schedEv := s.schedEv } : St D) = listOp s x := by
      rw [← f7, ← f8]
    obtain ⟨m, hm⟩ : ∃ m, (listOp s x).sched x.id = some m := by
      unfold listOp; cases hz : s.sched x.id <;> simp
    have hmr : m.reserved = rsv s x.id := by rw [← rsv_of hm, f9]
    rw [hm]
    simp only
    cases hr : rsv s x.id with
    | some q =>
      rw [hmr, hr]
      simp only [Option.isSome_some, if_true]
      refine ⟨true, listOp s x, rfl, fun _ => ⟨⟨v, ?_⟩, FrS.listOp s x, f5⟩, nofun⟩
      have := list_ok h hn x hx hmiss s.freeEv s.schedEv none (fun _ => Iff.rfl) h.base.disj hF hevS (fun _ _ h3 => by rw [hr] at h3; cases h3)
      rw [kmiss, e7] at this; exact this
    | none =>
      rw [hmr, hr]
      simp only [Option.isSome_none, Bool.false_eq_true, if_false]
      have h1 := list_ok h hn x hx hmiss s.freeEv s.schedEv (some x.id) (fun _ => Iff.rfl) h.base.disj hF hevS (fun _ _ _ => rfl)
      rw [e7] at h1
      have hs1 : Sch { k with S := k.S ++ [x], miss := some x.id } (listOp s x) := hs.fr (FrS.listOp s x) rfl rfl hs.out hs.due
      obtain ⟨b, s1, v1, e1, e2, e3, e4, e5, e6, e7'⟩ := reserve_ok E hE h1 hs1 (by rw [f5]; exact hn) (c := x.id) (by rw [f1]; exact hi) (by rw [f9]; exact hr) ⟨k.S, x, rfl, rfl, hxa⟩
      rw [e1, Option.bind_some]
      cases b with
      | false =>
        simp only [Bool.false_eq_true, if_false]
        obtain ⟨g1, g2, g3, g4⟩ := e6 rfl
        rw [f1] at g2 g3; rw [f7] at g4
        exact ⟨false, s1, rfl, nofun, fun _ => ⟨g1, hi, trivial, g2, g3, g4⟩⟩
      | true =>
        simp only [if_true]
        obtain ⟨⟨q, hq⟩, hbusy⟩ := e7' rfl
        rw [f1, f7] at hbusy
        obtain ⟨m1, hm1, hm1r⟩ := sched_of_rsv hq
        rw [hm1]
        simp only
        -- the block of the operation in progress is not scheduled again if it has data
        have hcur : ∀ y, k.cur = some y → y.id = x.id → (s1.b.blocks x.id).isInitialized = false := by
          intro y hy hid
          rw [e3.ini, f1]
          cases hz : (s.b.blocks x.id).isInitialized with
          | false => rfl
          | true =>
            exfalso
            obtain ⟨z1, z2, z3⟩ := hs.bud y hy (by rw [hid]; exact hz)
            refine hbusy ⟨z1, z2, ?_⟩
            cases hfe : s.freeEv with
            | nil => rfl
            | cons g l =>
              exfalso
              have h5 : g ∈ s.freeEv := by rw [hfe]; simp
              have h6 := z3 g h5
              rw [hid] at h6; subst h6; exact hnf h5
        have hops : (s1.b.blocks x.id).isInitialized = true → m1.ops = opsIn (k.S ++ [x]) x.id := by
          intro hz
          have ho := e2.plan.ops x.id
          rw [opsOf_of hm1] at ho
          have hc : curOps k.cur x.id = [] := by
            cases hcu : k.cur with
            | none => rfl
            | some y =>
              simp only [curOps]
              split
              · rename_i e; rw [hcur y hcu e] at hz; cases hz
              · rfl
          rw [show (m1.ops = curOps k.cur x.id ++ opsIn (k.S ++ [x]) x.id) from ho, hc]; rfl
        cases hsr : shallRead s1 x.id m1.ops with
        | true =>
          simp only [if_true]
          simp only [shallRead, St.blk, Bool.and_eq_true, beq_iff_eq] at hsr
          have hfst : First (k.S ++ [x]) x.id := by
            unfold First; rw [← hops hsr.1]; exact hsr.2
          obtain ⟨s2, v2, p1, p2, p3, p4, p5, _⟩ := prefetch_ok E e2 hq hs.due hs.stop hfst hsr.1 (.inr rfl) (by rw [show ({ k with S := k.S ++ [x], miss := some x.id } : Ctx).out = none from hs.out]; simp)
            (by rw [e3.n, f1]; exact hx)
          rw [p1]
          refine ⟨true, s2, rfl, fun _ => ⟨⟨v2, ?_⟩, ((FrS.listOp s x).trans e3).trans p3, by rw [p5, e4, f5]⟩, nofun⟩
          have p2 := p2.dueCongr k.due fun i => ⟨fun hc => False.elim hc, fun hc => absurd hc (hs.due i)⟩
          have p2 : Inv dflt a { k with S := k.S ++ [x], miss := none } v2 s2 := p2
          rw [kmiss] at p2; exact p2
        | false =>
          simp only [Bool.false_eq_true, if_false]
          refine ⟨true, s1, rfl, fun _ => ⟨⟨v1, ?_⟩, (FrS.listOp s x).trans e3, by rw [e4, f5]⟩, nofun⟩
          have p2 := e2.dropMiss (fun c hc => ?_)
          · have p2 : Inv dflt a { k with S := k.S ++ [x], miss := none } v1 s1 := p2
            rw [kmiss] at p2; exact p2
          · cases hc
            refine ⟨fun _ _ => by rw [hq]; simp, fun h1 h2 => ?_⟩
            exfalso
            unfold First at h1
            have h1 : (opsIn (k.S ++ [x]) x.id).head? = some POp.acquire := h1
            rw [← hops h2] at h1
            simp only [shallRead, St.blk, h2, h1, Bool.true_and] at hsr
            cases hsr
  · have hint : ((listOp s x).blk x.id).isInternal = true := by
      simp only [St.blk, f1, SB.isInternal]
      exact Option.isSome_iff_ne_none.2 hi
    rw [hint]
    simp only [if_true]
    by_cases hf : x.id ∈ s.freeEv
    · rw [if_pos (by rw [f7]; exact hf)]
      have := list_ok h hn x hx hmiss (eraseId s.freeEv x.id) (insertId s.schedEv x.id) none (fun i => ?_) (fun i h1 => ?_) (fun i h1 => ?_) (fun i h1 => ?_) (fun _ h2 _ => absurd h2 hi)
      · rw [kmiss] at this
        refine ⟨true, _, rfl, fun _ => ⟨⟨v, by rw [f7, f8]; exact this⟩, ?_, f5⟩, nofun⟩
        refine (FrS.listOp s x).trans ⟨rfl, rfl, rfl, rfl, fun _ => rfl, fun _ => rfl, rfl, fun h1 h2 => ⟨h1, h2⟩, fun i hi => (mem_eraseId.1 hi).1⟩
      · rw [mem_eraseId, mem_insertId]
        constructor
        · rintro (h1 | h1 | rfl)
          · exact .inl h1.1
          · exact .inr h1
          · exact .inl hf
        · rintro (h1 | h1)
          · by_cases e : i = x.id
            · exact .inr (.inr e)
            · exact .inl ⟨h1, e⟩
          · exact .inr (.inl h1)
      · rw [mem_eraseId] at h1; rw [mem_insertId]
        rintro (h2 | h2)
        · exact h.base.disj i h1.1 h2
        · exact h1.2 h2
      · rw [mem_eraseId] at h1; exact hevF i h1.1 h1.2
      · rw [mem_insertId] at h1
        rcases h1 with h1 | rfl
        · exact hevS i h1
        · exact .inl hacq
    · rw [if_neg (by rw [f7]; exact hf)]
      have := list_ok h hn x hx hmiss s.freeEv s.schedEv none (fun _ => Iff.rfl) h.base.disj (fun i h1 => hevF i h1 (by rintro rfl; exact hf h1)) hevS (fun _ h2 _ => absurd h2 hi)
      have e7 : ({ listOp s x with freeEv := s.freeEv, schedEv := s.schedEv } : St D) = listOp s x := by
        rw [← f7, ← f8]
      rw [kmiss, e7] at this
      exact ⟨true, _, rfl, fun _ => ⟨⟨v, this⟩, FrS.listOp s x, f5⟩, nofun⟩

/-- 1539-1618 -/
theorem scheduleOne_ok (E : Env D) (hE : ∀ l, E.pick l ∉ l) {dflt : D} {a : Abs D} {k : Ctx} {v : Swap.St D} {s : St D} (h : Inv dflt a k v s) (hs : Sch k s) (hn : s.next ≠ [])
    (hmiss : k.miss = none) (x : Elem) (hx : x.id < s.b.n) :
    ∃ b s', scheduleOne E s x = some (b, s') ∧
      (b = true → (∃ v', Inv dflt a { k with S := k.S ++ [x] } v' s') ∧ FrS s s' ∧ s'.next = s.next) ∧
      (b = false → s' = s ∧ isAcq x.op = true ∧ (s.b.blocks x.id).int = none ∧ rsv s x.id = none ∧ s.b.free = [] ∧ s.b.remaining = 0 ∧ s.freeEv = []) := by
  obtain ⟨f1, f2, f3, f4, f5, f6, f7, f8, f9, f10, f11, f12, f13⟩ := listOp_facts s x
  have kmiss : ∀ S, ({ k with S := S, miss := none } : Ctx) = { k with S := S } := by
    intro S; rw [← hmiss]
  have e7 : ({ listOp s x with freeEv := s.freeEv, schedEv := s.schedEv } : St D) = listOp s x := by
    rw [← f7, ← f8]
  have hevS : ∀ i, i ∈ s.schedEv → HasAcq (k.S ++ [x]) i ∨ ((s.b.blocks i).dirty = true ∧ POp.deinit ∈ opsIn (k.S ++ [x]) i) ∨ shallClean (opsIn (k.S ++ [x]) i) = true := fun i hi => evS_last (h.plan.evS i hi)
  have hplain : isAcq x.op = false → (∀ i, i ∈ s.freeEv → x.id = i → (s.b.blocks i).dirty = true → x.op ≠ .deinit) →
      (∃ v', Inv dflt a { k with S := k.S ++ [x] } v' (listOp s x)) ∧ FrS s (listOp s x) ∧ (listOp s x).next = s.next := by
    intro h1 h2
    have := list_ok h hn x hx hmiss s.freeEv s.schedEv none (fun _ => Iff.rfl) h.base.disj (fun i hi => evF_last (h.plan.evF i hi) fun e => ⟨h1, fun hd => h2 i hi e hd⟩) hevS
      (fun h3 => by rw [h1] at h3; cases h3)
    rw [kmiss, e7] at this
    exact ⟨⟨v, this⟩, FrS.listOp s x, f5⟩
  have hacq : isAcq x.op = true → ∃ b s', (scheduleAcquire E (listOp s x) x.id).map (fun r => if r.1 then r else (false, unlistOp r.2 x)) = some (b, s') ∧
      (b = true → (∃ v', Inv dflt a { k with S := k.S ++ [x] } v' s') ∧ FrS s s' ∧ s'.next = s.next) ∧
      (b = false → s' = s ∧ isAcq x.op = true ∧ (s.b.blocks x.id).int = none ∧ rsv s x.id = none ∧ s.b.free = [] ∧ s.b.remaining = 0 ∧ s.freeEv = []) := by
    intro hxa
    obtain ⟨b, s', h1, h2, h3⟩ := scheduleAcquire_ok E hE h hs hn hmiss x hx hxa
    rw [h1]
    cases b with
    | true => exact ⟨true, s', rfl, h2, nofun⟩
    | false =>
      obtain ⟨h4, h5⟩ := h3 rfl
      subst h4
      refine ⟨false, s, ?_, nofun, fun _ => ⟨rfl, hxa, h5⟩⟩
      simp only [Option.map_some, Bool.false_eq_true, if_false]
      rw [unlist_list (h.plan.opsNe x.id)]
  unfold scheduleOne
  rw [if_neg (by omega)]
  cases hop : x.op with
  | extract => exact ⟨true, _, rfl, fun _ => hplain (by rw [hop]; rfl) (fun _ _ _ _ => by rw [hop]; simp), nofun⟩
  | acquire => simp only; rw [hop] at hacq; exact hacq rfl
  | acquireUninit => simp only; rw [hop] at hacq; exact hacq rfl
  | release => exact ⟨true, _, rfl, fun _ => hplain (by rw [hop]; rfl) (fun _ _ _ _ => by rw [hop]; simp), nofun⟩
  | releaseDirty => exact ⟨true, _, rfl, fun _ => hplain (by rw [hop]; rfl) (fun _ _ _ _ => by rw [hop]; simp), nofun⟩
  | init => exact ⟨true, _, rfl, fun _ => hplain (by rw [hop]; rfl) (fun _ _ _ _ => by rw [hop]; simp), nofun⟩
  | deinit =>
    simp only
    by_cases hc : (s.b.blocks x.id).dirty = true ∧ x.id ∈ s.freeEv
    · rw [if_pos (by rw [St.blk, f1, f7]; exact hc)]
      refine ⟨true, _, rfl, fun _ => ?_, nofun⟩
      have := list_ok h hn x hx hmiss (eraseId s.freeEv x.id) (insertId s.schedEv x.id) none (fun i => ?_) (fun i h1 => ?_) (fun i h1 => ?_) (fun i h1 => ?_)
        (fun h3 => by rw [hop] at h3; cases h3)
      · rw [kmiss] at this
        refine ⟨⟨v, by rw [f7, f8]; exact this⟩, ?_, f5⟩
        refine (FrS.listOp s x).trans ⟨rfl, rfl, rfl, rfl, fun _ => rfl, fun _ => rfl, rfl, fun h1 h2 => ⟨h1, h2⟩, fun i hi => (mem_eraseId.1 hi).1⟩
      · rw [mem_eraseId, mem_insertId]
        constructor
        · rintro (h1 | h1 | rfl)
          · exact .inl h1.1
          · exact .inr h1
          · exact .inl hc.2
        · rintro (h1 | h1)
          · by_cases e : i = x.id
            · exact .inr (.inr e)
            · exact .inl ⟨h1, e⟩
          · exact .inr (.inl h1)
      · rw [mem_eraseId] at h1; rw [mem_insertId]
        rintro (h2 | h2)
        · exact h.base.disj i h1.1 h2
        · exact h1.2 h2
      · rw [mem_eraseId] at h1; exact evF_last (h.plan.evF i h1.1) fun e => absurd e.symm h1.2
      · rw [mem_insertId] at h1
        rcases h1 with h1 | rfl
        · exact hevS i h1
        · right; left
          refine ⟨hc.1, ?_⟩
          rw [opsIn_last, if_pos rfl, hop]; simp
    · rw [if_neg (by rw [St.blk, f1, f7]; exact hc)]
      refine ⟨true, _, rfl, fun _ => hplain (by rw [hop]; rfl) (fun i hi e hd => ?_), nofun⟩
      subst e; exact absurd ⟨hd, hi⟩ hc

theorem St.next_same {s : St D} {l : List Elem} (h : s.next = l) : ({ s with next := l } : St D) = s := by subst h; rfl

/-- 1619-1624 -/
theorem writeAll_ok (E : Env D) (hE : ∀ l, E.pick l ∉ l) {dflt : D} {a : Abs D} {k : Ctx} : ∀ (L : List Nat) {v : Swap.St D} {s : St D}, Inv dflt a k v s → s.next = [] → (∀ g ∈ L, g ∈ s.freeEv) →
    ∃ s' v', writeAll E L s = some s' ∧ Inv dflt a k v' s' ∧ FrS s s' ∧ s'.next = [] := by
  intro L
  induction L with
  | nil => intro v s h hn _; exact ⟨s, v, rfl, h, FrS.refl s, hn⟩
  | cons g L ih =>
    intro v s h hn hL
    unfold writeAll
    have hg := hL g (by simp)
    by_cases hw : (s.wsched g).isSome = true
    · rw [if_pos hw]; exact ih h hn fun i hi => hL i (by simp [hi])
    · rw [if_neg hw]
      have hw : s.wsched g = none := by simpa using hw
      obtain ⟨⟨p, hp⟩, hr, hval, hgn⟩ := h.ev_facts (.inl hg)
      obtain ⟨hna, hnd⟩ := h.plan.evF g hg
      obtain ⟨b, s1, v1, e1, e2, e3⟩ := scheduleWrite_ok E hE h (g := g) (by rw [hp]; simp) hr (fun hd => .inl ⟨hn, fun o ho => by
        cases hz : touches o with
        | false => rfl
        | true =>
          exfalso
          cases o with
          | deinit => exact hnd hd ho
          | acquire => exact hna ⟨_, ho, rfl⟩
          | acquireUninit => exact hna ⟨_, ho, rfl⟩
          | _ => cases hz⟩)
      rw [e1, Option.bind_some]
      have hfr : FrS s s1 ∧ s1.next = [] ∧ s1.freeEv = s.freeEv := by
        rcases e3 with ⟨rfl, rfl, rfl, hd⟩ | ⟨rfl, hd, e, p', hp', hfr⟩
        · exact ⟨FrS.refl _, hn, rfl⟩
        · have hb : s1.b.blocks = (s.b.set g { s.b.blocks g with ext := some e, dirty := false }).blocks := hfr.blocks
          refine ⟨⟨by rw [hfr.b]; rfl, by rw [hfr.b]; rfl, by rw [hfr.b]; rfl, by rw [hfr.b]; rfl, fun i => ?_, fun i => ?_, hfr.pred, fun h1 h2 => ⟨by rw [hfr.b]; exact h1, by rw [hfr.b]; exact h2⟩, fun i hi => ?_⟩, hfr.next.trans hn, hfr.freeEv⟩
          · rw [hb]; by_cases x : i = g
            · subst x; rw [Swap.set_same]
            · rw [Swap.set_other _ _ x]
          · rw [hb]; by_cases x : i = g
            · subst x; rw [Swap.set_same]; simp [SB.isInitialized, SB.isInternal, hp]
            · rw [Swap.set_other _ _ x]
          · rw [hfr.freeEv] at hi; exact hi
      obtain ⟨s', v', g1, g2, g3, g4⟩ := ih e2 hfr.2.1 (fun i hi => by rw [hfr.2.2]; exact hL i (by simp [hi]))
      exact ⟨s', v', g1, g2, hfr.1.trans g3, g4⟩

/-- The next operation of the sequence cannot be scheduled. -/
def Stuck (s : St D) : Prop := ∀ x l, s.next = x :: l →
  isAcq x.op = true ∧ (s.b.blocks x.id).int = none ∧ rsv s x.id = none ∧ s.b.free = [] ∧ s.b.remaining = 0 ∧ s.freeEv = []

/-- `schedule_next_operations` -/
theorem scheduleLoop_ok (E : Env D) (hE : ∀ l, E.pick l ∉ l) {dflt : D} {a : Abs D} : ∀ (l : List Elem) {k : Ctx} {v : Swap.St D} {s : St D}, Inv dflt a k v s → Sch k s → k.miss = none → s.next = l →
    (∀ x ∈ l, x.id < s.b.n) →
    ∃ s' v' S', scheduleLoop E l s = some s' ∧ Inv dflt a { k with S := S' } v' s' ∧ S' ++ s'.next = k.S ++ l ∧ FrS s s' ∧ Stuck s' ∧ (∀ x ∈ s'.next, x ∈ l) := by
  intro l
  induction l with
  | nil =>
    intro k v s h hs hm hn hp
    unfold scheduleLoop
    rw [St.next_same hn]
    obtain ⟨s', v', h1, h2, h3, h4⟩ := writeAll_ok E hE (inOrder s.b.n s.freeEv) h hn (fun g hg => by
      simp only [inOrder, List.mem_filter, decide_eq_true_eq] at hg; exact hg.2)
    refine ⟨s', v', k.S, h1, h2, by rw [h4], h3, ?_, by rw [h4]; exact fun _ h => h⟩
    intro x l hx; rw [h4] at hx; cases hx
  | cons x l ih =>
    intro k v s h hs hm hn hp
    unfold scheduleLoop
    rw [St.next_same hn]
    obtain ⟨b, s1, e1, e2, e3⟩ := scheduleOne_ok E hE h hs (by rw [hn]; simp) hm x (hp x (by simp))
    rw [e1, Option.bind_some]
    cases b with
    | false =>
      obtain ⟨rfl, g⟩ := e3 rfl
      refine ⟨s1, v, k.S, rfl, h, by rw [hn], FrS.refl s1, ?_, by rw [hn]; exact fun _ h => h⟩
      intro y l' hy
      rw [hn] at hy; cases hy; exact g
    | true =>
      obtain ⟨⟨v1, g1⟩, g2, g3⟩ := e2 rfl
      simp only [if_true]
      have g4 := g1.setNext l (fun hx => by rw [g3, hn] at hx; cases hx)
      have g5 : FrS s (s1.withNext l) := g2.trans ⟨rfl, rfl, rfl, rfl, fun _ => rfl, fun _ => rfl, rfl, fun h1 h2 => ⟨h1, h2⟩, fun _ h => h⟩
      obtain ⟨s', v', S', i1, i2, i3, i4, i5, i6⟩ := ih g4 (hs.fr g5 rfl rfl hs.out hs.due) hm rfl (fun y hy => by rw [g5.n]; exact hp y (by simp [hy]))
      refine ⟨s', v', S', i1, i2, ?_, g5.trans i4, i5, fun y hy => by simp [i6 y hy]⟩
      rw [i3]; simp

end Foxxll.Ahead
