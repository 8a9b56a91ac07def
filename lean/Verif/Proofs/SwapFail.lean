import Verif.Spec.SwapFail
import Verif.Proofs.BlockScheduler

set_option linter.unusedSimpArgs false
set_option linter.unusedVariables false

namespace Foxxll.SwapFail
open Foxxll.Swap

variable {D : Type}

/-! ### Invariants -/

/-- The state with the number of internal blocks that are not lost. -/
def fix (s : St D) : St D := { s with max := s.next + s.remaining }

/-- The evictable blocks are internal, not acquired and have data. -/
structure Evi (s : St D) : Prop where
  nd : (s.evict.map (·.2)).Nodup
  mem : ∀ i, i ∈ s.evict.map (·.2) → (s.blocks i).int ≠ none ∧ (s.blocks i).refs = 0
  valid : ∀ i, (s.blocks i).int ≠ none → (s.blocks i).refs = 0 → (s.blocks i).dirty = true ∨ (s.blocks i).ext ≠ none

/-- Block `i` and what the client knows about it. -/
structure OkF (dflt : D) (s : St D) (a : FAbs D) (i : Nat) : Prop where
  refs : a.refs i = (s.blocks i).refs
  work : ∀ p, 0 < (s.blocks i).refs → (s.blocks i).int = some p → a.work i = some (s.mem p)
  bad : a.lost i = true → (s.blocks i).ext ≠ none ∧ (s.blocks i).dirty = false ∧ a.data i ≠ none
  good : a.lost i = false → Swap.Ok dflt s a.toAbs i

structure FInv (dflt : D) (s : FSt D) (a : FAbs D) (hand : Option Nat) : Prop where
  core : Core (fix s.st) hand
  le : s.st.next + s.st.remaining ≤ s.st.max
  ev : Evi s.st
  ok : ∀ i, OkF dflt s.st a i
  held : ∀ e, (a.held e ≠ none ↔ e ∈ s.st.held) ∧ (a.lostHeld e = false → ∀ d, a.held e = some d → s.st.disk e = d)
  pend : ∀ x ∈ s.pend, (∀ i, (s.st.blocks i).ext = some x.2 → a.lost i = true ∨ (s.st.blocks i).dirty = true) ∧
    (x.2 ∈ s.st.held → a.lostHeld x.2 = true)

theorem ok_frame' {dflt : D} {s s' : St D} {a a' : Abs D} {i : Nat} (h : Ok dflt s a i) (hb : s'.blocks i = s.blocks i)
    (hm : ∀ p, (s.blocks i).int = some p → s'.mem p = s.mem p) (hd : (s.blocks i).dirty = false → ∀ e, (s.blocks i).ext = some e → s'.disk e = s.disk e)
    (h1 : a'.data i = a.data i) (h2 : a'.refs i = a.refs i) (h3 : a'.work i = a.work i) (h4 : a'.changed i = a.changed i) : Ok dflt s' a' i := by
  cases hdy : (s.blocks i).dirty with
  | false => exact ok_frame h hb hm (hd hdy) h1 h2 h3 h4
  | true =>
    constructor
    · rw [hb, h2]; exact h.refs
    · intro p; rw [hb, h1]; intro g1 g2; rw [hm p g2]; exact h.idleIn p g1 g2
    · rw [hb, hdy]; intro _ hc; cases hc
    · intro p; rw [hb, h1, h3, h4]; intro g1 g2; rw [hm p g2]
      have := h.used p g1 g2
      rw [hdy] at this ⊢
      exact this

theorem okf_frame {dflt : D} {s s' : St D} {a a' : FAbs D} {i : Nat} (h : OkF dflt s a i) (hb : s'.blocks i = s.blocks i)
    (hm : ∀ p, (s.blocks i).int = some p → s'.mem p = s.mem p)
    (hd : a.lost i = false → (s.blocks i).dirty = false → ∀ e, (s.blocks i).ext = some e → s'.disk e = s.disk e)
    (h1 : a'.data i = a.data i) (h2 : a'.refs i = a.refs i) (h3 : a'.work i = a.work i) (h4 : a'.changed i = a.changed i) (h5 : a'.lost i = a.lost i) :
    OkF dflt s' a' i := by
  constructor
  · rw [hb, h2]; exact h.refs
  · intro p; rw [hb, h3]; intro g1 g2; rw [hm p g2]; exact h.work p g1 g2
  · rw [hb, h1, h5]; exact h.bad
  · rw [h5]; intro hl; exact ok_frame' (h.good hl) hb hm (hd hl) h1 h2 h3 h4

/-- A block whose data are not known any more. -/
theorem okf_lose {dflt : D} {s : St D} {a : FAbs D} {i : Nat} (h : OkF dflt s a i) (l : List Nat)
    (hl : i ∈ l → (s.blocks i).ext ≠ none ∧ (s.blocks i).dirty = false ∧ a.data i ≠ none) : OkF dflt s (a.lose l) i := by
  constructor
  · exact h.refs
  · exact h.work
  · intro hx
    simp only [FAbs.lose, Bool.or_eq_true, decide_eq_true_eq] at hx
    rcases hx with hx | hx
    · exact hl hx
    · exact h.bad hx
  · intro hx
    simp only [FAbs.lose, Bool.or_eq_false_iff] at hx
    have := h.good hx.2
    exact ⟨this.refs, this.idleIn, this.idleOut, this.used⟩

@[simp] theorem lose_nil (a : FAbs D) : a.lose [] = a := by simp [FAbs.lose]

/-! ### Internal and external blocks -/

/-- Changes of flags and of the external block of `id`. -/
theorem core_ext {s : St D} {hand} (h : Core s hand) (id : Nat) (b : SB) (held : List Nat) (hi : b.int = (s.blocks id).int)
    (hd : b.dirty = true → b.int ≠ none) (hr : 0 < b.refs → b.int ≠ none)
    (he : ∀ e, b.ext = some e → id < s.n ∧ e ∉ held ∧ ∀ j, j ≠ id → (s.blocks j).ext ≠ some e)
    (hh : ∀ j e, j ≠ id → (s.blocks j).ext = some e → e ∉ held) : Core { s.set id b with held := held } hand := by
  have same : ({ s.set id b with held := held } : St D).blocks id = b := by simp [St.set]
  have other : ∀ j, j ≠ id → ({ s.set id b with held := held } : St D).blocks j = s.blocks j := by intro j hj; simp [St.set, hj]
  generalize hg : ({ s.set id b with held := held } : St D) = t at same other
  have t1 : t.next = s.next ∧ t.remaining = s.remaining ∧ t.max = s.max ∧ t.free = s.free ∧ t.n = s.n ∧ t.held = held := by subst hg; exact ⟨rfl, rfl, rfl, rfl, rfl, rfl⟩
  obtain ⟨t1, t2, t3, t4, t5, t6⟩ := t1
  have int_eq : ∀ j, (t.blocks j).int = (s.blocks j).int := by
    intro j; by_cases e : j = id
    · subst e; rw [same, hi]
    · rw [other _ e]
  constructor
  · rw [t1, t2, t3]; exact h.total
  · rw [t4]; exact h.freeNd
  · rw [t4, t1]; exact h.freeLt
  · intro i p; rw [int_eq, t1, t4, t5]; exact h.att i p
  · intro i j p; rw [int_eq, int_eq]; exact h.inj i j p
  · rw [t1, t4]; exact h.handOk
  · rw [t1, t4]; intro p hp; simp only [int_eq]; exact h.cover p hp
  · intro i; by_cases e : i = id
    · subst e; rw [same]; exact hd
    · rw [other _ e]; exact h.dirtyInt i
  · intro i; by_cases e : i = id
    · subst e; rw [same]; exact hr
    · rw [other _ e]; exact h.refsInt i
  · intro i j e
    by_cases ei : i = id <;> by_cases ej : j = id
    · intros; rw [ei, ej]
    · subst ei; rw [same, other _ ej]; intro h1 h2; exact absurd h2 ((he e h1).2.2 j ej)
    · subst ej; rw [same, other _ ei]; intro h1 h2; exact absurd h1 ((he e h2).2.2 i ei)
    · rw [other _ ei, other _ ej]; exact h.extOwn i j e
  · intro i e
    rw [t5, t6]
    by_cases ei : i = id
    · subst ei; rw [same]; intro h1; exact ⟨(he e h1).1, (he e h1).2.1⟩
    · rw [other _ ei]; intro h1; exact ⟨(h.extLive i e h1).1, hh i e ei h1⟩

/-- Block `id` loses its internal block. -/
theorem core_drop {s : St D} (h : Core s none) (id p : Nat) (hp : (s.blocks id).int = some p) (hr : (s.blocks id).refs = 0)
    (hd : (s.blocks id).dirty = false) : Core (s.set id { s.blocks id with int := none }) (some p) :=
  detached_core h ⟨hp, hr, by simp, by simp [hr], by simp [hd], by simp, by simp [hd], fun j hj => set_other _ _ hj, by simp⟩

theorem fix_set (s : St D) (id : Nat) (b : SB) : fix (s.set id b) = (fix s).set id b := rfl

/-! ### Requests in flight -/

theorem late_form (E : Env D) (s : FSt D) (x : Nat × Nat) : ∃ dk k', late E s x = ⟨{ s.st with disk := dk }, k', s.pend⟩ ∧ ∀ j, j ≠ x.2 → dk j = s.st.disk j := by
  unfold late
  split
  · exact ⟨_, _, rfl, fun j hj => by simp [hj]⟩
  · exact ⟨_, _, rfl, fun j hj => by simp [hj]⟩

theorem lates_form (E : Env D) (e : Nat) (l : List (Nat × Nat)) (hl : ∀ x ∈ l, x.2 = e) (s : FSt D) :
    ∃ dk k', l.foldl (late E) s = ⟨{ s.st with disk := dk }, k', s.pend⟩ ∧ ∀ j, j ≠ e → dk j = s.st.disk j := by
  induction l generalizing s with
  | nil => exact ⟨s.st.disk, s.k, rfl, fun _ _ => rfl⟩
  | cons x l ih =>
    obtain ⟨dk, k', h1, h2⟩ := late_form E s x
    obtain ⟨dk2, k2, h3, h4⟩ := ih (fun y hy => hl y (List.mem_cons_of_mem _ hy)) (late E s x)
    refine ⟨dk2, k2, ?_, fun j hj => ?_⟩
    · rw [List.foldl_cons, h3, h1]
    · rw [h4 j hj, h1]; exact h2 j (by rw [hl x List.mem_cons_self]; exact hj)

theorem settle_form (E : Env D) (s : FSt D) (e : Nat) :
    ∃ dk k', settle E s e = ⟨{ s.st with disk := dk }, k', s.pend.filter (fun x => x.2 != e)⟩ ∧ ∀ j, j ≠ e → dk j = s.st.disk j := by
  obtain ⟨dk, k', h1, h2⟩ := lates_form E e (s.pend.filter (fun x => x.2 == e)) (fun x hx => by simpa using (List.mem_filter.1 hx).2) { s with pend := s.pend.filter (fun x => x.2 != e) }
  exact ⟨dk, k', h1, h2⟩

theorem settle_none (E : Env D) (s : FSt D) (e : Nat) (h : ∀ x ∈ s.pend, x.2 ≠ e) : settle E s e = s := by
  have h1 : s.pend.filter (fun x => x.2 == e) = [] := List.filter_eq_nil_iff.2 fun x hx => by simpa using h x hx
  have h2 : s.pend.filter (fun x => x.2 != e) = s.pend := List.filter_eq_self.2 fun x hx => by simpa using h x hx
  unfold settle
  rw [h1, h2]; rfl

/-- Changes of an external block whose contents nobody relies on. -/
theorem finv_disk {dflt : D} {s : FSt D} {a : FAbs D} {hand} (h : FInv dflt s a hand) (e : Nat) (dk : Nat → D) (k' : Nat) (pend' : List (Nat × Nat))
    (hd : ∀ j, j ≠ e → dk j = s.st.disk j) (he1 : ∀ i, (s.st.blocks i).ext = some e → a.lost i = true ∨ (s.st.blocks i).dirty = true)
    (he2 : e ∈ s.st.held → a.lostHeld e = true) (hp : ∀ x ∈ pend', x ∈ s.pend) : FInv dflt ⟨{ s.st with disk := dk }, k', pend'⟩ a hand := by
  refine ⟨h.core.congr rfl rfl rfl rfl rfl rfl rfl, h.le, ⟨h.ev.nd, h.ev.mem, h.ev.valid⟩, fun i => ?_, fun x => ⟨(h.held x).1, fun hl d hx => ?_⟩, fun x hx => h.pend x (hp x hx)⟩
  · refine okf_frame (h.ok i) rfl (fun _ _ => rfl) (fun h1 h2 x hx => hd x ?_) rfl rfl rfl rfl rfl
    rintro rfl
    rcases he1 i hx with h3 | h3
    · rw [h1] at h3; cases h3
    · rw [h2] at h3; cases h3
  · show dk x = d
    by_cases hxe : x = e
    · subst hxe
      have := he2 ((h.held x).1.1 (by rw [hx]; simp))
      rw [hl] at this; cases this
    · rw [hd x hxe]; exact (h.held x).2 hl d hx

/-- `k` does not matter. -/
theorem finv_k {dflt : D} {s : FSt D} {a : FAbs D} {hand} (h : FInv dflt s a hand) (k' : Nat) : FInv dflt { s with k := k' } a hand :=
  ⟨h.core, h.le, h.ev, h.ok, h.held, h.pend⟩

theorem late_inv (E : Env D) {dflt : D} {s s' : FSt D} {a : FAbs D} {hand} (h : FInv dflt s a hand) {i : Nat} (hs : lateAt E s i = some s') : FInv dflt s' a hand := by
  unfold lateAt at hs
  split at hs
  · cases hs
  · rename_i x hx
    split at hs
    · cases hs
      have hm := List.mem_of_getElem? hx
      obtain ⟨dk, k', h1, h2⟩ := late_form E { s with pend := s.pend.eraseIdx i } x
      rw [h1]
      exact finv_disk h x.2 dk k' _ h2 (h.pend x hm).1 (h.pend x hm).2 (fun y hy => List.mem_of_mem_eraseIdx hy)
    · cases hs

theorem settle_inv (E : Env D) {dflt : D} {s : FSt D} {a : FAbs D} {hand} (h : FInv dflt s a hand) (e : Nat) : FInv dflt (settle E s e) a hand := by
  by_cases hx : ∀ x ∈ s.pend, x.2 ≠ e
  · rw [settle_none E s e hx]; exact h
  · have : ∃ x ∈ s.pend, x.2 = e := Classical.byContradiction fun hc => hx fun x hx' he => hc ⟨x, hx', he⟩
    obtain ⟨x, hm, rfl⟩ := this
    obtain ⟨dk, k', h1, h2⟩ := settle_form E s x.2
    rw [h1]
    exact finv_disk h x.2 dk k' _ h2 (h.pend x hm).1 (h.pend x hm).2 (fun y hy => (List.mem_filter.1 hy).1)

/-! ### Writing blocks out -/

/-- The data of block `id` are known again. -/
def FAbs.find (a : FAbs D) (id : Nat) : FAbs D := { a with lost := upd a.lost id false }

theorem find_lose (a : FAbs D) (id : Nat) (l : List Nat) (h : a.lost id = false) (hl : id ∉ l) : (a.lose (id :: l)).find id = a.lose l := by
  unfold FAbs.find FAbs.lose
  congr 1
  funext i
  by_cases e : i = id
  · subst e; simp [h, hl]
  · simp [upd_other _ _ e, e]

theorem writeSync_spec (E : Env D) {dflt : D} {s : FSt D} {a : FAbs D} {hand} (h : FInv dflt s a hand) (id p e : Nat) (hl : a.lost id = true)
    (hx : (s.st.blocks id).ext = some e) :
    ∃ dk k', (∀ j, j ≠ e → dk j = s.st.disk j) ∧
      ((writeSync E s id p e = .throws [id] ⟨{ s.st with disk := dk }, k', s.pend.filter (fun x => x.2 != e)⟩ ∧
          FInv dflt ⟨{ s.st with disk := dk }, k', s.pend.filter (fun x => x.2 != e)⟩ a hand) ∨
        (writeSync E s id p e = .ok () ⟨{ s.st with disk := dk }, k', s.pend.filter (fun x => x.2 != e)⟩ ∧ dk e = s.st.mem p ∧
          ((s.st.blocks id).refs = 0 → a.data id = some (s.st.mem p) → (∀ q, (s.st.blocks id).int = some q → q = p) →
            FInv dflt ⟨{ s.st with disk := dk }, k', s.pend.filter (fun x => x.2 != e)⟩ (FAbs.find a id) hand))) := by
  have hw : ∀ i, (s.st.blocks i).ext = some e → i = id := fun i hi => h.core.extOwn i id e hi hx
  have hnh : e ∉ s.st.held := (h.core.extLive id e hx).2
  obtain ⟨dk0, k0, g1, g2⟩ := settle_form E s e
  have hin : ∀ dk k', (∀ j, j ≠ e → dk j = s.st.disk j) → FInv dflt ⟨{ s.st with disk := dk }, k', s.pend.filter (fun x => x.2 != e)⟩ a hand :=
    fun dk k' hd => finv_disk h e dk k' _ hd (fun i hi => .inl (by rw [hw i hi]; exact hl)) (fun hc => absurd hc hnh) (fun y hy => (List.mem_filter.1 hy).1)
  unfold writeSync
  rw [g1]
  simp only
  cases hans : E.ans k0 with
  | fail d =>
    have hd : ∀ j, j ≠ e → (fun j => if j = e then d else dk0 j) j = s.st.disk j := fun j hj => by simp only [hj, if_false]; exact g2 j hj
    exact ⟨_, k0 + 1, hd, .inl ⟨rfl, hin _ _ hd⟩⟩
  | ok =>
    have hd : ∀ j, j ≠ e → (fun j => if j = e then s.st.mem p else dk0 j) j = s.st.disk j := fun j hj => by simp only [hj, if_false]; exact g2 j hj
    refine ⟨_, k0 + 1, hd, .inr ⟨rfl, if_pos rfl, fun hr hdat hint => ?_⟩⟩
    have h1 := hin _ (k0 + 1) hd
    have hb := (h.ok id).bad hl
    refine ⟨h1.core, h1.le, h1.ev, fun i => ?_, h1.held, fun x hxm => ⟨fun i hi => ?_, (h1.pend x hxm).2⟩⟩
    · by_cases ei : i = id
      · subst ei
        refine ⟨(h.ok i).refs, (h.ok i).work, fun hc => by simp [FAbs.find] at hc, fun _ => ⟨(h.ok i).refs, ?_, ?_, ?_⟩⟩
        · intro q _ hq; rw [hint q hq]; exact hdat
        · intro _ _
          show a.data i = (s.st.blocks i).ext.map fun j => if j = e then s.st.mem p else dk0 j
          rw [hx, hdat]; simp
        · intro q hq; exact absurd hq (by show ¬ 0 < (s.st.blocks i).refs; omega)
      · exact okf_frame (h1.ok i) rfl (fun _ _ => rfl) (fun _ _ _ _ => rfl) rfl rfl rfl rfl (upd_other _ _ ei)
    · by_cases ei : i = id
      · subst ei
        rw [show ((s.st.blocks i).ext) = some x.2 from hi] at hx
        have := (List.mem_filter.1 hxm).2
        cases hx
        simp at this
      · rcases (h1.pend x hxm).1 i hi with h2 | h2
        · exact .inl ((upd_other _ _ ei).trans h2)
        · exact .inr h2

theorem startClean_spec (E : Env D) (hE : ∀ l, E.pick l ∉ l) {dflt : D} {s : FSt D} {a : FAbs D} {hand} (h : FInv dflt s a hand) (id p : Nat)
    (hd : (s.st.blocks id).dirty = true) (hr : (s.st.blocks id).refs = 0) (hp : (s.st.blocks id).int = some p) :
    startClean E s id = .throws [] { s with k := s.k + 1 } ∨
      ∃ e k', startClean E s id = .ok e { s with k := k', st := s.st.set id { s.st.blocks id with ext := some e, dirty := false } } ∧
        FInv dflt { s with k := k', st := s.st.set id { s.st.blocks id with ext := some e, dirty := false } } (a.lose [id]) hand ∧
        a.lost id = false ∧ a.data id = some (s.st.mem p) := by
  have hnl : a.lost id = false := by
    cases hl : a.lost id with
    | false => rfl
    | true => have := ((h.ok id).bad hl).2.1; rw [hd] at this; cases this
  have hdat := ((h.ok id).good hnl).idleIn p hr hp
  have hid : id < s.st.n := (h.core.att id p hp).1
  have key : ∀ e k', ((s.st.blocks id).ext = some e ∨ e ∉ s.st.live) →
      FInv dflt { s with k := k', st := s.st.set id { s.st.blocks id with ext := some e, dirty := false } } (a.lose [id]) hand := by
    intro e k' he
    have he1 : e ∉ s.st.held := by
      rcases he with he | he
      · exact (h.core.extLive id e he).2
      · exact fun hm => he (List.mem_append.2 (.inr hm))
    have he2 : ∀ j, j ≠ id → (s.st.blocks j).ext ≠ some e := by
      intro j hj hc
      rcases he with he | he
      · exact hj (h.core.extOwn j id e hc he)
      · exact he (mem_live h.core hc)
    refine ⟨?_, h.le, ⟨h.ev.nd, fun i => ?_, fun i => ?_⟩, fun i => ?_, h.held, fun x hx => ⟨fun i hi => ?_, (h.pend x hx).2⟩⟩
    · exact core_ext h.core id { s.st.blocks id with ext := some e, dirty := false } s.st.held rfl (fun hc => by cases hc) (fun _ => by simp [hp])
        (fun e' h1 => by cases h1; exact ⟨hid, he1, he2⟩) (fun j e' hj h1 => (h.core.extLive j e' h1).2)
    · rw [set_evict]
      by_cases ei : i = id
      · subst ei; rw [set_same]; exact fun _ => ⟨by simp [hp], hr⟩
      · rw [set_other _ _ ei]; exact h.ev.mem i
    · by_cases ei : i = id
      · subst ei; rw [set_same]; simp
      · rw [set_other _ _ ei]; exact h.ev.valid i
    · by_cases ei : i = id
      · subst ei
        refine ⟨?_, ?_, fun _ => ?_, fun hc => by simp [FAbs.lose] at hc⟩
        · rw [set_same]; exact (h.ok i).refs
        · rw [set_same]; exact (h.ok i).work
        · rw [set_same]
          exact ⟨by simp, rfl, by rw [show (a.lose [i]).data i = a.data i from rfl, hdat]; simp⟩
      · exact okf_frame (h.ok i) (set_other _ _ ei) (fun _ _ => rfl) (fun _ _ _ _ => rfl) rfl rfl rfl rfl (by simp [FAbs.lose, ei])
    · by_cases ei : i = id
      · subst ei; exact .inl (by simp [FAbs.lose])
      · simp only [set_other _ _ ei] at hi ⊢
        rcases (h.pend x hx).1 i hi with h1 | h1
        · exact .inl (by simp [FAbs.lose, h1])
        · exact .inr h1
  cases hx : (s.st.blocks id).ext with
  | some e =>
    refine .inr ⟨e, s.k, ?_, key e s.k (.inl hx), hnl, hdat⟩
    simp [startClean, needExt, R.bind, hx]
  | none =>
    cases hsp : E.space s.k with
    | false => exact .inl (by simp [startClean, needExt, R.bind, hx, hsp])
    | true =>
      refine .inr ⟨E.pick s.st.live, s.k + 1, ?_, key _ _ (.inr (hE _)), hnl, hdat⟩
      simp only [startClean, needExt, R.bind, hx, hsp, if_true, set_same]
      congr 2
      simp only [St.set]
      congr 1
      funext j
      by_cases e : j = id <;> simp [e]

/-- Removal of requests in flight. -/
def Fewer (s s' : FSt D) : Prop := ∀ x ∈ s'.pend, x ∈ s.pend

theorem Fewer.refl (s : FSt D) : Fewer s s := fun _ h => h
theorem Fewer.trans {s t u : FSt D} (h1 : Fewer s t) (h2 : Fewer t u) : Fewer s u := fun x h => h1 x (h2 x h)

/-- What a step does not change: all but the contents of external blocks, the flags of block `id`, and requests served. -/
structure Same (s s' : FSt D) (id : Nat) : Prop where
  other : ∀ j, j ≠ id → s'.st.blocks j = s.st.blocks j
  refs : (s'.st.blocks id).refs = (s.st.blocks id).refs
  ext : (s.st.blocks id).ext ≠ none → (s'.st.blocks id).ext = (s.st.blocks id).ext
  max : s'.st.max = s.st.max
  remaining : s'.st.remaining = s.st.remaining
  next : s'.st.next = s.st.next
  free : s'.st.free = s.st.free
  n : s'.st.n = s.st.n
  evict : s'.st.evict = s.st.evict
  mem : s'.st.mem = s.st.mem
  held : s'.st.held = s.st.held
  fewer : Fewer s s'

theorem clean_spec (E : Env D) (hE : ∀ l, E.pick l ∉ l) {dflt : D} {s : FSt D} {a : FAbs D} {hand} (h : FInv dflt s a hand) (id p : Nat)
    (hr : (s.st.blocks id).refs = 0) (hp : (s.st.blocks id).int = some p) :
    (∃ hit s1, clean E s id = .throws hit s1 ∧ FInv dflt s1 (a.lose hit) hand ∧ Same s s1 id ∧ (s1.st.blocks id).int = some p ∧ (hit = [] ∨ hit = [id])) ∨
      ∃ s1, clean E s id = .ok () s1 ∧ FInv dflt s1 a hand ∧ Same s s1 id ∧ (s1.st.blocks id).int = some p ∧ (s1.st.blocks id).dirty = false := by
  cases hd : (s.st.blocks id).dirty with
  | false => exact .inr ⟨s, by simp [clean, hd], h, ⟨fun _ _ => rfl, rfl, fun _ => rfl, rfl, rfl, rfl, rfl, rfl, rfl, rfl, rfl, Fewer.refl s⟩, hp, hd⟩
  | true =>
    rcases startClean_spec E hE h id p hd hr hp with g | ⟨e, k', g, g1, g2, g3⟩
    · exact .inl ⟨[], { s with k := s.k + 1 }, by simp [clean, hd, g, R.bind], by rw [lose_nil]; exact finv_k h _, ⟨fun _ _ => rfl, rfl, fun _ => rfl, rfl, rfl, rfl, rfl, rfl, rfl, rfl, rfl, Fewer.refl s⟩, hp, .inl rfl⟩
    · have hex : ∀ e', (s.st.blocks id).ext = some e' → e' = e := by
        intro e' he'
        simp only [startClean, needExt, he', R.bind, R.ok.injEq] at g
        exact g.1
      have hne : (s.st.blocks id).ext ≠ none → some e = (s.st.blocks id).ext := by
        intro hc
        obtain ⟨e', he'⟩ := Option.ne_none_iff_exists'.1 hc
        rw [he', hex e' he']
      have hcl : clean E s id = writeSync E { s with k := k', st := s.st.set id { s.st.blocks id with ext := some e, dirty := false } } id p e := by
        unfold clean
        rw [if_pos hd, g]
        simp [R.bind, hp]
      rw [hcl]
      have hl : (a.lose [id]).lost id = true := by simp [FAbs.lose]
      obtain ⟨dk, k2, w1, w2⟩ := writeSync_spec E g1 id p e hl (by simp)
      have hsame : ∀ pend', (∀ x ∈ pend', x ∈ s.pend) → Same s ⟨{ s.st.set id { s.st.blocks id with ext := some e, dirty := false } with disk := dk }, k2, pend'⟩ id := fun pend' hpd =>
        ⟨fun j hj => set_other _ _ hj, by simp [St.set], fun hc => by simpa [St.set] using hne hc, rfl, rfl, rfl, rfl, rfl, rfl, rfl, rfl, hpd⟩
      rcases w2 with ⟨w2, w3⟩ | ⟨w2, w3, w4⟩
      · rw [w2]
        exact .inl ⟨[id], _, rfl, w3, hsame _ (fun x hx => (List.mem_filter.1 hx).1), by simp [St.set, hp], .inr rfl⟩
      · rw [w2]
        have := w4 (by simp [hr]) g3 (fun q hq => by rw [set_same] at hq; simp only at hq; rw [hp] at hq; cases hq; rfl)
        rw [find_lose a id [] g2 (by simp), lose_nil] at this
        exact .inr ⟨_, rfl, this, hsame _ (fun x hx => (List.mem_filter.1 hx).1), by simp [St.set, hp], by simp [St.set]⟩

/-- A clean block gives its internal block away. -/
theorem take_inv {dflt : D} {s : FSt D} {a : FAbs D} (h : FInv dflt s a none) (id p : Nat) (hr : (s.st.blocks id).refs = 0)
    (hp : (s.st.blocks id).int = some p) (hd : (s.st.blocks id).dirty = false) (hn : id ∉ s.st.evict.map (·.2)) :
    FInv dflt { s with st := s.st.set id { s.st.blocks id with int := none } } a (some p) := by
  refine ⟨core_drop h.core id p hp hr hd, h.le, ⟨h.ev.nd, fun i => ?_, fun i => ?_⟩, fun i => ?_, h.held, fun x hx => ⟨fun i hi => ?_, (h.pend x hx).2⟩⟩
  · rw [set_evict]
    by_cases ei : i = id
    · subst ei; exact fun hc => absurd hc hn
    · rw [set_other _ _ ei]; exact h.ev.mem i
  · by_cases ei : i = id
    · subst ei; rw [set_same]; simp
    · rw [set_other _ _ ei]; exact h.ev.valid i
  · by_cases ei : i = id
    · subst ei
      refine ⟨?_, ?_, ?_, fun hl => ⟨?_, ?_, ?_, ?_⟩⟩
      · rw [set_same]; exact (h.ok i).refs
      · rw [set_same]; intro q _ hq; cases hq
      · rw [set_same]; exact (h.ok i).bad
      · rw [set_same]; exact (h.ok i).refs
      · rw [set_same]; intro q _ hq; cases hq
      · rw [set_same]; exact ((h.ok i).good hl).idleOut
      · rw [set_same]; intro q _ hq; cases hq
    · exact okf_frame (h.ok i) (set_other _ _ ei) (fun _ _ => rfl) (fun _ _ _ _ => rfl) rfl rfl rfl rfl rfl
  · by_cases ei : i = id
    · subst ei; simp only [set_same] at hi ⊢; exact (h.pend x hx).1 i hi
    · simp only [set_other _ _ ei] at hi ⊢; exact (h.pend x hx).1 i hi

theorem detach_spec (E : Env D) (hE : ∀ l, E.pick l ∉ l) {dflt : D} {s : FSt D} {a : FAbs D} (h : FInv dflt s a none) (id p : Nat)
    (hr : (s.st.blocks id).refs = 0) (hp : (s.st.blocks id).int = some p) (hn : id ∉ s.st.evict.map (·.2)) :
    (∃ hit s1, detach E s id = .throws hit s1 ∧ FInv dflt s1 (a.lose hit) none ∧ Same s s1 id ∧ (s1.st.blocks id).int = some p ∧ (hit = [] ∨ hit = [id])) ∨
      ∃ s1, detach E s id = .ok p s1 ∧ FInv dflt s1 a (some p) ∧ Same s s1 id ∧ (s1.st.blocks id).int = none ∧ (s1.st.blocks id).dirty = false := by
  have hev : (s.st.blocks id).isEvictable = true := by simp [SB.isEvictable, SB.isAcquired, SB.isInternal, hp, hr]
  unfold detach
  rw [if_pos hev]
  rcases clean_spec E hE h id p hr hp with ⟨hit, s1, g1, g2, g3, g4, g5⟩ | ⟨s1, g1, g2, g3, g4, g5⟩
  · rw [g1]; exact .inl ⟨hit, s1, rfl, g2, g3, g4, g5⟩
  · rw [g1]
    refine .inr ⟨{ s1 with st := s1.st.set id { s1.st.blocks id with int := none } }, by simp [R.bind, takeInt, g4], ?_, ?_, by simp, by simp [g5]⟩
    · exact take_inv g2 id p (by rw [g3.refs]; exact hr) g4 g5 (by rw [g3.evict]; exact hn)
    · exact ⟨fun j hj => by rw [set_other _ _ hj]; exact g3.other j hj, by simp [g3.refs], fun hc => by simpa using g3.ext hc, g3.max, g3.remaining, g3.next, g3.free, g3.n, g3.evict, g3.mem, g3.held, g3.fewer⟩

theorem giveBack_inv {dflt : D} {s : FSt D} {a : FAbs D} {p : Nat} (h : FInv dflt s a (some p)) : FInv dflt (giveBack s p) a none :=
  ⟨(giveBack_core h.core).congr rfl rfl rfl rfl rfl rfl rfl, h.le, ⟨h.ev.nd, h.ev.mem, h.ev.valid⟩, fun i => okf_frame (h.ok i) rfl (fun _ _ => rfl) (fun _ _ _ _ => rfl) rfl rfl rfl rfl rfl, h.held, h.pend⟩

theorem finv_evict {dflt : D} {s : FSt D} {a : FAbs D} {hand} (h : FInv dflt s a hand) (m : Mode) (l : List (Nat × Nat)) (hnd : (l.map (·.2)).Nodup)
    (hm : ∀ i ∈ l.map (·.2), (s.st.blocks i).int ≠ none ∧ (s.st.blocks i).refs = 0) : FInv dflt { s with st := { s.st with mode := m, evict := l } } a hand :=
  ⟨h.core.congr rfl rfl rfl rfl rfl rfl rfl, h.le, ⟨hnd, hm, h.ev.valid⟩, fun i => okf_frame (h.ok i) rfl (fun _ _ => rfl) (fun _ _ _ _ => rfl) rfl rfl rfl rfl rfl, h.held, h.pend⟩

/-- The block evicted next. -/
theorem pop_inv {dflt : D} {s : FSt D} {a : FAbs D} {hand} (h : FInv dflt s a hand) {x : Nat × Nat} {rest : List (Nat × Nat)}
    (hp : popEvict s.st.mode s.st.evict = some (x, rest)) :
    FInv dflt { s with st := { s.st with evict := rest } } a hand ∧ x.2 ∉ rest.map (·.2) ∧ (s.st.blocks x.2).refs = 0 ∧ (∃ p, (s.st.blocks x.2).int = some p) ∧
      s.st.evict.length = rest.length + 1 := by
  have hperm := pop_perm hp
  have hids : (s.st.evict.map (·.2)).Perm (x.2 :: rest.map (·.2)) := hperm.map _
  obtain ⟨n1, n2⟩ := List.nodup_cons.1 (hids.nodup_iff.1 h.ev.nd)
  have hm := h.ev.mem x.2 (hids.mem_iff.2 List.mem_cons_self)
  exact ⟨finv_evict h s.st.mode rest n2 (fun i hi => h.ev.mem i (hids.mem_iff.2 (List.mem_cons_of_mem _ hi))), n1, hm.2, Option.ne_none_iff_exists'.1 hm.1,
    by rw [hperm.length_eq]; rfl⟩

/-! ### Internal blocks -/

theorem getFree_spec (E : Env D) (hE : ∀ l, E.pick l ∉ l) {dflt : D} {s : FSt D} {a : FAbs D} (h : FInv dflt s a none) :
    (getFree E s = .ub ∧ s.st.free = [] ∧ s.st.remaining = 0 ∧ s.st.evict = []) ∨
    (∃ hit s1, getFree E s = .throws hit s1 ∧ FInv dflt s1 (a.lose hit) none ∧ (hit = [] ∨ ∃ x ∈ s.st.evict, hit = [x.2]) ∧ Fewer s s1) ∨
      ∃ p s1, getFree E s = .ok p s1 ∧ FInv dflt s1 a (some p) ∧ s1.st.n = s.st.n ∧ (∀ i, (s.st.blocks i).int = none → s1.st.blocks i = s.st.blocks i) ∧ Fewer s s1 := by
  have hbs : ∀ p s1 k', Swap.getFreeBs s.st = (some p, s1) → FInv dflt { s with k := k', st := s1 } a (some p) ∧ s1.n = s.st.n ∧ s1.blocks = s.st.blocks := by
    intro p s1 k' hg
    have hg' : Swap.getFreeBs (fix s.st) = (some p, { s1 with max := s.st.next + s.st.remaining }) := by
      revert hg
      unfold Swap.getFreeBs fix
      simp only
      split
      · intro hg; cases hg; rfl
      · split
        · intro hg; cases hg; rfl
        · intro hg; cases hg
    obtain ⟨c, h1, h2, h3, h4, h5, h6, h7, h8⟩ := getFreeBs_core h.core hg'
    simp only [fix] at h1 h2 h3 h4 h5 h6
    have ht := c.total
    simp only at ht
    have hmax : s1.max = s.st.max := by
      revert hg
      unfold Swap.getFreeBs
      split
      · intro hg; cases hg; rfl
      · split
        · intro hg; cases hg; rfl
        · intro hg; cases hg
    refine ⟨⟨c.congr ?_ rfl rfl rfl rfl rfl rfl, ?_, ⟨?_, ?_, ?_⟩, fun i => ?_, fun e => ?_, fun x hx => ?_⟩, h6, h1⟩
    · show s1.next + s1.remaining = s.st.next + s.st.remaining
      exact ht
    · show s1.next + s1.remaining ≤ s1.max
      rw [hmax, ht]; exact h.le
    · simp only [h2]; exact h.ev.nd
    · simp only [h1, h2]; exact h.ev.mem
    · simp only [h1]; exact h.ev.valid
    · exact okf_frame (h.ok i) (congrFun h1 i) (fun q _ => congrFun h3 q) (fun _ _ q _ => congrFun h4 q) rfl rfl rfl rfl rfl
    · simp only [h5, h4]; exact h.held e
    · simp only [h1, h5]; exact h.pend x hx
  have hnone : s.st.free = [] → s.st.remaining = 0 → getFreeBs E s = .ok none s := by
    intro h1 h2
    simp [getFreeBs, h1, h2]
  unfold getFree
  cases hf : s.st.free with
  | cons q rest =>
    have hg : Swap.getFreeBs s.st = (some q, { s.st with free := rest }) := by simp [Swap.getFreeBs, hf]
    obtain ⟨g1, g2, g3⟩ := hbs q _ s.k hg
    have : getFreeBs E s = .ok (some q) { s with st := { s.st with free := rest } } := by simp [getFreeBs, hf, Swap.getFreeBs]
    rw [this]
    exact .inr (.inr ⟨q, _, rfl, g1, g2, fun i _ => congrFun g3 i, Fewer.refl s⟩)
  | nil =>
    by_cases hr : 0 < s.st.remaining
    · cases hm : E.mem s.k with
      | true =>
        have hg : Swap.getFreeBs s.st = (some s.st.next, (Swap.getFreeBs s.st).2) := by simp [Swap.getFreeBs, hf, hr]
        obtain ⟨g1, g2, g3⟩ := hbs _ _ (s.k + 1) hg
        have : getFreeBs E s = .ok (some s.st.next) { s with k := s.k + 1, st := (Swap.getFreeBs s.st).2 } := by
          simp only [getFreeBs, hf, hr, hm, if_true]
          rw [hg]
        rw [this]
        exact .inr (.inr ⟨_, _, rfl, g1, g2, fun i _ => congrFun g3 i, Fewer.refl s⟩)
      | false =>
        have : getFreeBs E s = .throws [] { s with k := s.k + 1, st := { s.st with remaining := s.st.remaining - min allocAtOnce s.st.remaining } } := by
          simp [getFreeBs, hf, hr, hm]
        rw [this]
        refine .inr (.inl ⟨[], _, rfl, ?_, .inl rfl, Fewer.refl s⟩)
        rw [lose_nil]
        have c := h.core
        refine ⟨⟨rfl, c.freeNd, c.freeLt, c.att, c.inj, c.handOk, c.cover, c.dirtyInt, c.refsInt, c.extOwn, c.extLive⟩, ?_, ⟨h.ev.nd, h.ev.mem, h.ev.valid⟩,
          fun i => okf_frame (h.ok i) rfl (fun _ _ => rfl) (fun _ _ _ _ => rfl) rfl rfl rfl rfl rfl, h.held, h.pend⟩
        have := h.le
        show s.st.next + (s.st.remaining - _) ≤ s.st.max
        omega
    · have hr0 : s.st.remaining = 0 := by omega
      rw [hnone hf hr0]
      simp only [R.bind]
      cases hp : popEvict s.st.mode s.st.evict with
      | none => exact .inl ⟨rfl, trivial, hr0, pop_none hp⟩
      | some xr =>
        obtain ⟨x, rest⟩ := xr
        obtain ⟨i1, i2, i3, ⟨p, i4⟩, _⟩ := pop_inv h hp
        simp only
        rcases detach_spec E hE i1 x.2 p i3 i4 i2 with ⟨hit, s1, g1, g2, g3, g4, g5⟩ | ⟨s1, g1, g2, g3, g4, g5⟩
        · refine .inr (.inl ⟨hit, s1, g1, g2, ?_, g3.fewer⟩)
          rcases g5 with g5 | g5
          · exact .inl g5
          · exact .inr ⟨x, (pop_perm hp).mem_iff.2 List.mem_cons_self, g5⟩
        · refine .inr (.inr ⟨p, s1, g1, g2, g3.n, fun i hi => g3.other i ?_, g3.fewer⟩)
          rintro rfl
          rw [hi] at i4; cases i4

/-! ### acquire -/

/-- Block `id` gets an internal block with contents `d` and is acquired. -/
theorem finish_inv {dflt : D} {s : FSt D} {a : FAbs D} {p : Nat} (h : FInv dflt s a (some p)) (id : Nat) (hid : id < s.st.n)
    (hi : (s.st.blocks id).int = none) (u : Bool) (d : D) (hd : a.lost id = false → u = false → d = (a.data id).getD dflt) :
    FInv dflt { s with st := setMem (s.st.set id { s.st.blocks id with int := some p, refs := 1, dirty := false }) p d } (a.next (.acquire id u) (.data d)) none := by
  have hr0 : (s.st.blocks id).refs = 0 := by
    rcases Nat.eq_zero_or_pos (s.st.blocks id).refs with h1 | h1
    · exact h1
    · exact absurd hi (h.core.refsInt id h1)
  have hd0 : (s.st.blocks id).dirty = false := by
    cases hd : (s.st.blocks id).dirty with
    | false => rfl
    | true => exact absurd hi (h.core.dirtyInt id hd)
  have hr : a.refs id = 0 := by rw [(h.ok id).refs, hr0]
  have same : (setMem (s.st.set id { s.st.blocks id with int := some p, refs := 1, dirty := false }) p d).blocks id = { s.st.blocks id with int := some p, refs := 1, dirty := false } := by simp [setMem]
  have other : ∀ j, j ≠ id → (setMem (s.st.set id { s.st.blocks id with int := some p, refs := 1, dirty := false }) p d).blocks j = s.st.blocks j := fun j hj => by simp [setMem, set_other _ _ hj]
  have hmem : (setMem (s.st.set id { s.st.blocks id with int := some p, refs := 1, dirty := false }) p d).mem p = d := by simp [setMem]
  simp only [FAbs.next, Abs.next, hr, Nat.lt_irrefl, if_false]
  refine ⟨?_, h.le, ⟨h.ev.nd, fun i hm => ?_, fun i => ?_⟩, fun i => ?_, h.held, fun x hx => ⟨fun i hi' => ?_, (h.pend x hx).2⟩⟩
  · exact (core_attach h.core id hid { s.st.blocks id with int := some p, refs := 1, dirty := false } hi rfl rfl).congr rfl rfl rfl rfl rfl rfl rfl
  · have := h.ev.mem i hm
    by_cases e : i = id
    · subst e; exact absurd hi this.1
    · rw [other i e]; exact this
  · by_cases e : i = id
    · subst e; rw [same]; simp
    · rw [other i e]; exact h.ev.valid i
  · by_cases e : i = id
    · subst e
      refine ⟨?_, ?_, ?_, fun hl => ⟨?_, ?_, ?_, ?_⟩⟩
      · rw [same]; simp
      · rw [same]; intro q _ hq; cases hq; rw [hmem]; simp
      · rw [same]; intro hl; have := (h.ok i).bad hl; exact ⟨this.1, rfl, this.2.2⟩
      · rw [same]; simp
      · rw [same]; simp
      · rw [same]; simp
      · rw [same]; intro q _ hq
        cases hq
        rw [hmem]
        refine ⟨by simp, fun hc => ⟨?_, ?_⟩⟩
        · simp only [Bool.false_eq_true, if_false]
          exact ((h.ok i).good hl).idleOut hr0 hd0
        · simp only [upd_same] at hc
          exact hd hl hc
    · refine okf_frame (h.ok i) (other i e) (fun q hq => ?_) (fun _ _ _ _ => rfl) rfl (upd_other _ _ e) (upd_other _ _ e) (upd_other _ _ e) rfl
      have : q ≠ p := by rintro rfl; exact (h.core.att i q hq).2.2.2 rfl
      simp [setMem, this]
  · by_cases e : i = id
    · subst e
      rw [same] at hi' ⊢
      rcases (h.pend x hx).1 i hi' with h1 | h1
      · exact .inl h1
      · rw [hd0] at h1; cases h1
    · rw [other i e] at hi' ⊢; exact (h.pend x hx).1 i hi'

/-- A failed read: block `id` has an internal block, with any contents. -/
theorem stuck_inv {dflt : D} {s : FSt D} {a : FAbs D} {p : Nat} (h : FInv dflt s a (some p)) (id : Nat) (hid : id < s.st.n)
    (hi : (s.st.blocks id).int = none) (d : D) (hx : (s.st.blocks id).ext ≠ none) :
    FInv dflt { s with st := setMem (s.st.set id { s.st.blocks id with int := some p, dirty := false }) p d } (a.lose [id]) none := by
  have hr0 : (s.st.blocks id).refs = 0 := by
    rcases Nat.eq_zero_or_pos (s.st.blocks id).refs with h1 | h1
    · exact h1
    · exact absurd hi (h.core.refsInt id h1)
  have hd0 : (s.st.blocks id).dirty = false := by
    cases hd : (s.st.blocks id).dirty with
    | false => rfl
    | true => exact absurd hi (h.core.dirtyInt id hd)
  have same : (setMem (s.st.set id { s.st.blocks id with int := some p, dirty := false }) p d).blocks id = { s.st.blocks id with int := some p, dirty := false } := by simp [setMem]
  have other : ∀ j, j ≠ id → (setMem (s.st.set id { s.st.blocks id with int := some p, dirty := false }) p d).blocks j = s.st.blocks j := fun j hj => by simp [setMem, set_other _ _ hj]
  refine ⟨?_, h.le, ⟨h.ev.nd, fun i hm => ?_, fun i => ?_⟩, fun i => ?_, h.held, fun x hx => ⟨fun i hi' => ?_, (h.pend x hx).2⟩⟩
  · exact (core_attach h.core id hid { s.st.blocks id with int := some p, dirty := false } hi rfl rfl).congr rfl rfl rfl rfl rfl rfl rfl
  · have := h.ev.mem i hm
    by_cases e : i = id
    · subst e; exact absurd hi this.1
    · rw [other i e]; exact this
  · by_cases e : i = id
    · subst e; rw [same]; exact fun _ _ => .inr hx
    · rw [other i e]; exact h.ev.valid i
  · by_cases e : i = id
    · subst e
      refine ⟨?_, ?_, fun _ => ?_, fun hl => by simp [FAbs.lose] at hl⟩
      · rw [same]; exact (h.ok i).refs
      · rw [same]; intro q hq; simp only at hq; omega
      · rw [same]
        refine ⟨hx, rfl, ?_⟩
        show a.data i ≠ none
        cases hl : a.lost i with
        | true => exact ((h.ok i).bad hl).2.2
        | false =>
          rw [((h.ok i).good hl).idleOut hr0 hd0]
          simpa using hx
    · refine okf_frame (h.ok i) (other i e) (fun q hq => ?_) (fun _ _ _ _ => rfl) rfl rfl rfl rfl (by simp [FAbs.lose, e])
      have : q ≠ p := by rintro rfl; exact (h.core.att i q hq).2.2.2 rfl
      simp [setMem, this]
  · by_cases e : i = id
    · subst e; exact .inl (by simp [FAbs.lose])
    · rw [other i e] at hi' ⊢
      rcases (h.pend x hx).1 i hi' with h1 | h1
      · exact .inl (by simp [FAbs.lose, h1])
      · exact .inr h1

theorem acquire_internal {dflt : D} (E : Env D) {s : FSt D} {a : FAbs D} (h : FInv dflt s a none) (id p : Nat) (u : Bool) (hid : id < s.st.n)
    (hp : (s.st.blocks id).int = some p) : ∃ s1, acquire E s id u = .ok p s1 ∧ FInv dflt s1 (a.next (.acquire id u) (.data (s1.st.mem p))) none ∧
      Expected dflt a (.acquire id u) (.data (s1.st.mem p)) ∧ Fewer s s1 := by
  have hr := (h.ok id).refs
  have hpd : ∀ x ∈ s.pend, ∀ i (b : SB), b.ext = (s.st.blocks id).ext → b.dirty = (s.st.blocks id).dirty → (i = id → ∀ x', b.ext = some x' → x' = x.2 → a.lost i = true ∨ b.dirty = true) := by
    intro x hx i b h1 h2 hi x' hx' hxx
    subst hi hxx
    rw [h2]
    exact (h.pend x hx).1 i (by rw [← h1]; exact hx')
  by_cases hacq : 0 < (s.st.blocks id).refs
  · have hw := (h.ok id).work p hacq hp
    refine ⟨addRef s id, ?_, ?_, ?_, Fewer.refl s⟩
    · simp [acquire, Nat.not_le.2 hid, hp, SB.isAcquired, hacq]
    · simp only [FAbs.next, Abs.next, hr, hacq, if_true, addRef]
      refine ⟨core_flags h.core id _ rfl rfl (h.core.dirtyInt id) (fun _ => by show (s.st.blocks id).int ≠ none; simp [hp]), h.le, ⟨h.ev.nd, fun i hm => ?_, fun i => ?_⟩, fun i => ?_, h.held,
        fun x hx => ⟨fun i hi => ?_, (h.pend x hx).2⟩⟩
      · have := h.ev.mem i hm
        by_cases e : i = id
        · subst e; omega
        · rw [set_other _ _ e]; exact this
      · by_cases e : i = id
        · subst e; rw [set_same]; simp
        · rw [set_other _ _ e]; exact h.ev.valid i
      · by_cases e : i = id
        · subst e
          refine ⟨by simp [hr], ?_, ?_, fun hl => ⟨by simp [hr], ?_, ?_, ?_⟩⟩
          · rw [set_same]; intro q _ hq; simp only at hq; rw [hp] at hq; cases hq; exact hw
          · rw [set_same]; exact (h.ok i).bad
          · rw [set_same]; simp
          · rw [set_same]; simp
          · rw [set_same]; intro q _ hq; simp only at hq; rw [hp] at hq; cases hq
            exact ((h.ok i).good hl).used p hacq hp
        · exact okf_frame (h.ok i) (set_other _ _ e) (fun _ _ => rfl) (fun _ _ _ _ => rfl) rfl (upd_other _ _ e) rfl rfl rfl
      · by_cases e : i = id
        · subst e; simp only [set_same] at hi ⊢; exact (h.pend x hx).1 i hi
        · simp only [set_other _ _ e] at hi ⊢; exact (h.pend x hx).1 i hi
    · have : ¬ (a.refs id = 0 ∧ a.lost id = true) := by rw [hr]; omega
      simp only [Expected]
      rw [if_neg this]
      simp only [Swap.Expected, hr, hacq, if_true]
      exact ⟨_, hw, rfl⟩
  · have h0 : (s.st.blocks id).refs = 0 := by omega
    refine ⟨addRef { s with st := { s.st with evict := eraseEvict s.st.evict id } } id, ?_, ?_, ?_, Fewer.refl s⟩
    · simp [acquire, Nat.not_le.2 hid, hp, SB.isAcquired, hacq]
    · simp only [FAbs.next, Abs.next, hr, hacq, if_false, addRef]
      refine ⟨core_flags (h.core.evict s.st.mode _) id _ rfl rfl (h.core.dirtyInt id) (fun _ => by show (s.st.blocks id).int ≠ none; simp [hp]), h.le, ⟨erase_nodup id h.ev.nd, fun i hm => ?_, fun i => ?_⟩, fun i => ?_, h.held,
        fun x hx => ⟨fun i hi => ?_, (h.pend x hx).2⟩⟩
      · rw [set_evict, erase_ids] at hm
        rw [set_other _ _ hm.2]; exact h.ev.mem i hm.1
      · by_cases e : i = id
        · subst e; rw [set_same]; simp
        · rw [set_other _ _ e]; exact h.ev.valid i
      · by_cases e : i = id
        · subst e
          refine ⟨by simp [h0], ?_, ?_, fun hl => ⟨by simp [h0], ?_, ?_, ?_⟩⟩
          · rw [set_same]; intro q _ hq; simp only at hq; rw [hp] at hq; cases hq; simp
          · rw [set_same]; exact (h.ok i).bad
          · rw [set_same]; simp
          · rw [set_same]; simp
          · rw [set_same]; intro q _ hq; simp only at hq; rw [hp] at hq; cases hq
            have hok := (h.ok i).good hl
            have hin := hok.idleIn p h0 hp
            refine ⟨by simp, fun _ => ⟨?_, by simp [hin]⟩⟩
            show a.data i = if (s.st.blocks i).dirty = true then some (s.st.mem p) else _
            cases hd : (s.st.blocks i).dirty with
            | true => simpa using hin
            | false => simpa using hok.idleOut h0 hd
        · exact okf_frame (h.ok i) (set_other _ _ e) (fun _ _ => rfl) (fun _ _ _ _ => rfl) rfl (upd_other _ _ e) (upd_other _ _ e) (upd_other _ _ e) rfl
      · by_cases e : i = id
        · subst e; simp only [set_same] at hi ⊢; exact (h.pend x hx).1 i hi
        · simp only [set_other _ _ e] at hi ⊢; exact (h.pend x hx).1 i hi
    · simp only [Expected, Swap.Expected, hr, h0, Nat.lt_irrefl, if_false, true_and]
      split
      · exact ⟨_, rfl⟩
      · rename_i hl
        have hl : a.lost id = false := by simpa using hl
        have hin := ((h.ok id).good hl).idleIn p h0 hp
        cases u
        · simp [hin, addRef]
        · simp

theorem ite_pend {c : Bool} (E : Env D) (s : FSt D) (e : Nat) : ∃ dk k' pend', (if c then s else settle E s e) = ⟨{ s.st with disk := dk }, k', pend'⟩ ∧
    (∀ j, j ≠ e → dk j = s.st.disk j) ∧ (∀ x ∈ pend', x ∈ s.pend) ∧ ((∀ x ∈ s.pend, x.2 ≠ e) → dk = s.st.disk) := by
  cases c with
  | true => exact ⟨s.st.disk, s.k, s.pend, rfl, fun _ _ => rfl, fun _ h => h, fun _ => rfl⟩
  | false =>
    obtain ⟨dk, k', h1, h2⟩ := settle_form E s e
    refine ⟨dk, k', _, h1, h2, fun x hx => (List.mem_filter.1 hx).1, fun hn => ?_⟩
    have h3 := settle_none E s e hn
    rw [h1] at h3
    exact congrArg (fun x : FSt D => x.st.disk) h3

theorem acquire_spec (E : Env D) (hE : ∀ l, E.pick l ∉ l) {dflt : D} (hf : ∀ d, E.fill d = dflt) {s : FSt D} {a : FAbs D} (h : FInv dflt s a none) (id : Nat) (u : Bool)
    (hid : id < s.st.n) :
    (acquire E s id u = .ub ∧ (s.st.blocks id).int = none ∧ s.st.free = [] ∧ s.st.remaining = 0 ∧ s.st.evict = []) ∨
    (∃ hit s1, acquire E s id u = .throws hit s1 ∧ FInv dflt s1 (a.lose hit) none ∧ Fewer s s1) ∨
      ∃ p s1, acquire E s id u = .ok p s1 ∧ FInv dflt s1 (a.next (.acquire id u) (.data (s1.st.mem p))) none ∧
        Expected dflt a (.acquire id u) (.data (s1.st.mem p)) ∧ Fewer s s1 := by
  cases hp : (s.st.blocks id).int with
  | some p =>
    obtain ⟨s1, h1⟩ := acquire_internal E h id p u hid hp
    exact .inr (.inr ⟨p, s1, h1⟩)
  | none =>
    have hr0 : (s.st.blocks id).refs = 0 := by
      rcases Nat.eq_zero_or_pos (s.st.blocks id).refs with h1 | h1
      · exact h1
      · exact absurd hp (h.core.refsInt id h1)
    have hd0 : (s.st.blocks id).dirty = false := by
      cases hd : (s.st.blocks id).dirty with
      | false => rfl
      | true => exact absurd hp (h.core.dirtyInt id hd)
    have hr : a.refs id = 0 := by rw [(h.ok id).refs, hr0]
    have hexp : ∀ d, (a.lost id = false → u = false → d = (a.data id).getD dflt) → Expected dflt a (.acquire id u) (.data d) := by
      intro d hd
      simp only [Expected, Swap.Expected, hr, Nat.lt_irrefl, if_false, true_and]
      split
      · exact ⟨_, rfl⟩
      · rename_i hl
        have hl : a.lost id = false := by simpa using hl
        cases u
        · simp [hd hl rfl]
        · simp
    rcases getFree_spec E hE h with ⟨g, g1⟩ | ⟨hit, s1, g, g1, _, g2⟩ | ⟨p, s1, g, g1, g2, g3, g4⟩
    · refine .inl ⟨?_, rfl, g1⟩
      unfold acquire
      rw [if_neg (Nat.not_le.2 hid), hp]
      simp only [g, R.bind, ite_self]
    · refine .inr (.inl ⟨hit, s1, ?_, g1, g2⟩)
      unfold acquire
      rw [if_neg (Nat.not_le.2 hid), hp]
      simp only [g, R.bind, ite_self]
    · have hb := g3 id hp
      have hi1 : (s1.st.blocks id).int = none := by rw [hb, hp]
      have hid1 : id < s1.st.n := by rw [g2]; exact hid
      -- without a read
      have plain : ∀ d, (a.lost id = false → u = false → d = (a.data id).getD dflt) →
          acquire E s id u = .ok p { s1 with st := setMem (s1.st.set id { s1.st.blocks id with int := some p, refs := 1, dirty := false }) p d } →
          (acquire E s id u = .ub ∧ (none : Option Nat) = none ∧ s.st.free = [] ∧ s.st.remaining = 0 ∧ s.st.evict = []) ∨
          (∃ hit s1, acquire E s id u = .throws hit s1 ∧ FInv dflt s1 (a.lose hit) none ∧ Fewer s s1) ∨
          ∃ p s1, acquire E s id u = .ok p s1 ∧ FInv dflt s1 (a.next (.acquire id u) (.data (s1.st.mem p))) none ∧
            Expected dflt a (.acquire id u) (.data (s1.st.mem p)) ∧ Fewer s s1 := by
        intro d hd heq
        have hm : (setMem (s1.st.set id { s1.st.blocks id with int := some p, refs := 1, dirty := false }) p d).mem p = d := by simp [setMem]
        refine .inr (.inr ⟨p, _, heq, ?_, ?_, g4⟩)
        · rw [hm]; exact finish_inv g1 id hid1 hi1 u d hd
        · rw [hm]; exact hexp d hd
      have hadd : ∀ d, setMem (addRef (attach s1 id p) id).st p d = setMem (s1.st.set id { s1.st.blocks id with int := some p, refs := 1, dirty := false }) p d := by
        intro d
        simp only [addRef, attach, setMem, set_same, hb, hr0, hd0]
        simp only [St.set]
        congr 1
        funext j
        by_cases e : j = id <;> simp [e, hd0]
      have hself : ∀ t : St D, setMem t p (t.mem p) = t := by
        intro t
        simp only [setMem]
        have : (fun j => if j = p then t.mem p else t.mem j) = t.mem := by
          funext j; by_cases e : j = p
          · rw [if_pos e, e]
          · rw [if_neg e]
        rw [this]
      have hini : (s.st.blocks id).isInitialized = (s.st.blocks id).ext.isSome := by simp [SB.isInitialized, SB.isInternal, SB.isExternal, hp, hd0]
      cases u with
      | true =>
        refine plain (s1.st.mem p) (fun _ hc => by cases hc) ?_
        unfold acquire
        rw [if_neg (Nat.not_le.2 hid), hp]
        simp only [g, R.bind, if_true, ite_self]
        have h1 := hself (addRef (attach s1 id p) id).st
        have h2 := hadd (s1.st.mem p)
        rw [show (addRef (attach s1 id p) id).st.mem p = s1.st.mem p from rfl] at h1
        rw [h1] at h2
        rw [← h2]
        rfl
      | false =>
        cases hx : (s.st.blocks id).ext with
        | none =>
          refine plain dflt (fun hl _ => ?_) ?_
          · rw [((h.ok id).good hl).idleOut hr0 hd0, hx]; rfl
          · unfold acquire
            rw [if_neg (Nat.not_le.2 hid), hp]
            simp only [hini, hx, g, R.bind, Option.isSome_none, Bool.false_eq_true, if_false]
            rw [← hadd dflt, hf]
            rfl
        | some e =>
          have hacq : acquire E s id false = (readSync E { attach s1 id p with st := (attach s1 id p).st.set id { (attach s1 id p).st.blocks id with dirty := false } } id e p).bind fun _ s3 => .ok p (addRef s3 id) := by
            unfold acquire
            rw [if_neg (Nat.not_le.2 hid), hp]
            simp only [hini, hx, Option.isSome_some, if_true, g, R.bind, Bool.false_eq_true, if_false]
            have : ((attach s1 id p).st.blocks id).ext = some e := by simp [attach, hb, hx]
            rw [this]
          have hst : (attach s1 id p).st.set id { (attach s1 id p).st.blocks id with dirty := false } = s1.st.set id { s1.st.blocks id with int := some p, dirty := false } := by
            simp only [attach, set_same]
            simp only [St.set]
            congr 1
            funext j
            by_cases e : j = id <;> simp [e]
          rw [hacq]
          rw [hst]
          unfold readSync
          obtain ⟨dk, k', pend', r1, r2, r3, r4⟩ := ite_pend (c := E.over s1.k) E { attach s1 id p with st := s1.st.set id { s1.st.blocks id with int := some p, dirty := false } } e
          have r1' : (if E.over ({ attach s1 id p with st := s1.st.set id { s1.st.blocks id with int := some p, dirty := false } } : FSt D).k = true then
              ({ attach s1 id p with st := s1.st.set id { s1.st.blocks id with int := some p, dirty := false } } : FSt D) else settle E { attach s1 id p with st := s1.st.set id { s1.st.blocks id with int := some p, dirty := false } } e) =
              ⟨{ s1.st.set id { s1.st.blocks id with int := some p, dirty := false } with disk := dk }, k', pend'⟩ := r1
          simp only at r1'
          rw [r1']
          -- the state after the requests in flight
          have hx1 : (s1.st.blocks id).ext = some e := by rw [hb, hx]
          have hd1 : (s1.st.blocks id).dirty = false := by rw [hb, hd0]
          have hnp : a.lost id = false → dk = s1.st.disk := by
            intro hl
            refine r4 fun x hxm hxe => ?_
            rcases (g1.pend x hxm).1 id (by rw [hxe]; exact hx1) with h1 | h1
            · rw [hl] at h1; cases h1
            · rw [hd1] at h1; cases h1
          have hinv : ∀ k, FInv dflt ⟨{ s1.st with disk := dk }, k, pend'⟩ a (some p) := by
            intro k
            cases hl : a.lost id with
            | true =>
              exact finv_disk g1 e dk k pend' r2 (fun i hi => .inl (by rw [g1.core.extOwn i id e hi hx1]; exact hl))
                (fun hc => absurd hc (g1.core.extLive id e hx1).2) r3
            | false =>
              have := hnp hl
              have hfin := finv_k g1 k
              exact ⟨hfin.core.congr rfl rfl rfl rfl rfl rfl rfl, hfin.le, ⟨hfin.ev.nd, hfin.ev.mem, hfin.ev.valid⟩,
                fun i => okf_frame (hfin.ok i) rfl (fun _ _ => rfl) (fun _ _ q _ => congrFun this q) rfl rfl rfl rfl rfl,
                fun x => by rw [this]; exact hfin.held x, fun x hx => hfin.pend x (r3 x hx)⟩
          simp only
          cases hans : E.ans k' with
          | fail d =>
            refine .inr (.inl ⟨[id], _, rfl, ?_, ?_⟩)
            · exact stuck_inv (hinv (k' + 1)) id hid1 hi1 d (by show (s1.st.blocks id).ext ≠ none; rw [hx1]; simp)
            · exact fun x hx => g4 x (r3 x hx)
          | ok =>
            have hfin : addRef ⟨setMem { s1.st.set id { s1.st.blocks id with int := some p, dirty := false } with disk := dk } p (dk e), k' + 1, pend'⟩ id =
                ⟨setMem (({ s1.st with disk := dk } : St D).set id { s1.st.blocks id with int := some p, refs := 1, dirty := false }) p (dk e), k' + 1, pend'⟩ := by
              simp only [addRef, setMem, St.set, hb, hr0, if_true]
              congr 2
              funext j
              by_cases e : j = id <;> simp [e, hr0]
            have hd : a.lost id = false → false = false → dk e = (a.data id).getD dflt := by
              intro hl _
              have hout := ((g1.ok id).good hl).idleOut (by rw [hb]; exact hr0) hd1
              rw [hx1] at hout
              rw [hout, hnp hl]
              rfl
            have hm : (setMem (({ s1.st with disk := dk } : St D).set id { s1.st.blocks id with int := some p, refs := 1, dirty := false }) p (dk e)).mem p = dk e := by simp [setMem]
            refine .inr (.inr ⟨p, _, rfl, ?_, ?_, ?_⟩)
            · rw [hfin, hm]; exact finish_inv (hinv (k' + 1)) id hid1 hi1 false (dk e) hd
            · rw [hfin, hm]; exact hexp _ hd
            · exact fun x hx => g4 x (r3 x hx)

/-! ### Other calls -/

theorem write_spec {dflt : D} {s : FSt D} {a : FAbs D} (h : FInv dflt s a none) (id : Nat) (d : D) (hid : id < s.st.n) (ha : 0 < a.refs id) :
    ∃ t, Swap.write s.st id d = some t ∧ FInv dflt { s with st := t } (a.next (.write id d) .unit) none := by
  have hr : 0 < (s.st.blocks id).refs := by rw [← (h.ok id).refs]; exact ha
  obtain ⟨p, hp⟩ := Option.ne_none_iff_exists'.1 (h.core.refsInt id hr)
  have hp : (s.st.blocks id).int = some p := hp
  refine ⟨{ s.st with mem := fun j => if j = p then d else s.st.mem j }, ?_, ?_⟩
  · simp [Swap.write, Nat.not_le.2 hid, SB.isAcquired, hr, hp]
  · refine ⟨h.core.congr rfl rfl rfl rfl rfl rfl rfl, h.le, ⟨h.ev.nd, h.ev.mem, h.ev.valid⟩, fun i => ?_, h.held, h.pend⟩
    by_cases e : i = id
    · subst e
      refine ⟨(h.ok i).refs, fun q _ hq => ?_, (h.ok i).bad, fun hl => ⟨(h.ok i).refs, fun q hq => ?_, fun hq => ?_, fun q _ hq => ?_⟩⟩
      · simp only at hq; rw [hp] at hq; cases hq; simp [FAbs.next, Abs.next]
      · simp only at hq; omega
      · simp only at hq; omega
      · simp only at hq; rw [hp] at hq; cases hq
        refine ⟨by simp [FAbs.next, Abs.next], fun hc => by simp [FAbs.next, Abs.next] at hc⟩
    · refine okf_frame (h.ok i) rfl (fun q hq => ?_) (fun _ _ _ _ => rfl) rfl rfl (upd_other _ _ e) (upd_other _ _ e) rfl
      have : q ≠ p := by rintro rfl; exact e (h.core.inj i id q hq hp)
      simp [this]

theorem release_spec (E : Env D) {dflt : D} {s : FSt D} {a : FAbs D} (h : FInv dflt s a none) (id : Nat) (dirty : Bool) (pr : SB → Nat)
    (hid : id < s.st.n) (ha : Swap.Allowed a.toAbs (.release id dirty pr)) :
    ∃ s1, release E s id dirty pr = .ok () s1 ∧ FInv dflt s1 (a.next (.release id dirty pr) .unit) none ∧ s1.pend = s.pend := by
  obtain ⟨ha1, ha2⟩ := ha
  have hrefs := (h.ok id).refs
  have hr : 0 < (s.st.blocks id).refs := by rw [← hrefs]; exact ha1
  obtain ⟨p, hp⟩ := Option.ne_none_iff_exists'.1 (h.core.refsInt id hr)
  have hp : (s.st.blocks id).int = some p := hp
  have hw := (h.ok id).work p hr hp
  have hnext : ∀ i, i ≠ id → ((a.next (.release id dirty pr) .unit).data i = a.data i ∧ (a.next (.release id dirty pr) .unit).refs i = a.refs i ∧
      (a.next (.release id dirty pr) .unit).work i = a.work i ∧ (a.next (.release id dirty pr) .unit).changed i = a.changed i ∧
      (a.next (.release id dirty pr) .unit).lost i = a.lost i) := by
    intro i hi
    cases dirty <;> simp [FAbs.next, Abs.next, upd_other _ _ hi]
  have hn1 : (a.next (.release id dirty pr) .unit).refs id = (s.st.blocks id).refs - 1 := by cases dirty <;> simp [FAbs.next, Abs.next, hrefs]
  have hn2 : (a.next (.release id dirty pr) .unit).work id = some (s.st.mem p) := by cases dirty <;> simp [FAbs.next, Abs.next, hw]
  have hn3 : (a.next (.release id dirty pr) .unit).changed id = (if dirty then false else a.changed id) := by cases dirty <;> simp [FAbs.next, Abs.next]
  have hn4 : (a.next (.release id dirty pr) .unit).data id = (if dirty then some (s.st.mem p) else a.data id) := by cases dirty <;> simp [FAbs.next, Abs.next, hw]
  have hn5 : (a.next (.release id dirty pr) .unit).lost id = (if dirty then false else a.lost id) := by cases dirty <;> simp [FAbs.next]
  have hn6 : (a.next (.release id dirty pr) .unit).held = a.held ∧ (a.next (.release id dirty pr) .unit).lostHeld = a.lostHeld := by cases dirty <;> simp [FAbs.next, Abs.next]
  generalize a.next (.release id dirty pr) .unit = a' at hnext hn1 hn2 hn3 hn4 hn5 hn6
  have hb : (s.st.blocks id).isAcquired = true := by simp [SB.isAcquired, hr]
  generalize hB : ({ s.st.blocks id with dirty := dirty || (s.st.blocks id).dirty, refs := (s.st.blocks id).refs - 1 } : SB) = B
  have B1 : B.int = some p := by subst hB; exact hp
  have B2 : B.ext = (s.st.blocks id).ext := by subst hB; rfl
  have B3 : B.dirty = (dirty || (s.st.blocks id).dirty) := by subst hB; rfl
  have B4 : B.refs = (s.st.blocks id).refs - 1 := by subst hB; rfl
  have hc1 : Core (fix (s.st.set id B)) none := core_flags h.core id B (by rw [B1]; exact hp.symm) B2 (fun _ => by simp [B1]) (fun _ => by simp [B1])
  have hpd : ∀ x ∈ s.pend, (∀ i, ((s.st.set id B).blocks i).ext = some x.2 → a'.lost i = true ∨ ((s.st.set id B).blocks i).dirty = true) ∧ (x.2 ∈ s.st.held → a'.lostHeld x.2 = true) := by
    intro x hx
    refine ⟨fun i hi => ?_, by rw [hn6.2]; exact (h.pend x hx).2⟩
    by_cases e : i = id
    · subst e
      rw [set_same] at hi ⊢
      rw [B3, hn5]
      cases dirty with
      | true => exact .inr rfl
      | false => exact (h.pend x hx).1 i (by rw [← B2]; exact hi)
    · rw [set_other _ _ e] at hi ⊢
      rw [(hnext i e).2.2.2.2]
      exact (h.pend x hx).1 i hi
  have hheld : ∀ e, (a'.held e ≠ none ↔ e ∈ s.st.held) ∧ (a'.lostHeld e = false → ∀ d, a'.held e = some d → s.st.disk e = d) := by
    rw [hn6.1, hn6.2]; exact h.held
  have hbad : a'.lost id = true → B.ext ≠ none ∧ B.dirty = false ∧ a'.data id ≠ none := by
    rw [hn5, hn4, B2, B3]
    cases dirty with
    | true => intro hc; simp at hc
    | false => simpa using (h.ok id).bad
  by_cases hlast : 0 < (s.st.blocks id).refs - 1
  · refine ⟨{ s with st := s.st.set id B }, ?_, ?_, rfl⟩
    · have : B.isAcquired = true := by simp [SB.isAcquired, B4, hlast]
      simp only [release, Nat.not_le.2 hid, if_false, hb, if_true, hB, this]
    · refine ⟨hc1, h.le, ⟨h.ev.nd, fun i hm => ?_, fun i => ?_⟩, fun i => ?_, hheld, hpd⟩
      · have := h.ev.mem i hm
        by_cases e : i = id
        · subst e; omega
        · rw [set_other _ _ e]; exact this
      · by_cases e : i = id
        · subst e; rw [set_same, B4]; intro _ hc; omega
        · rw [set_other _ _ e]; exact h.ev.valid i
      · by_cases e : i = id
        · subst e
          refine ⟨?_, ?_, ?_, fun hl => ⟨?_, ?_, ?_, ?_⟩⟩
          · rw [set_same, B4]; exact hn1
          · rw [set_same, B1]; intro q _ hq; cases hq; exact hn2
          · rw [set_same]; exact hbad
          · rw [set_same, B4]; exact hn1
          · rw [set_same, B4]; intro q hc; omega
          · rw [set_same, B4]; intro hc; omega
          · rw [set_same, B1, B2, B3]
            intro q _ hq
            cases hq
            refine ⟨hn2, fun hc => ?_⟩
            rw [hn3] at hc
            rw [hn4]
            cases dirty with
            | true => simp
            | false => simpa using (((h.ok i).good (by rw [← hl, hn5]; rfl)).used p hr hp).2 hc
        · obtain ⟨n1, n2, n3, n4, n5⟩ := hnext i e
          exact okf_frame (h.ok i) (set_other _ _ e) (fun _ _ => rfl) (fun _ _ _ _ => rfl) n1 n2 n3 n4 n5
  · have h1 : (s.st.blocks id).refs = 1 := by omega
    have hch : dirty = false → a.changed id = false := by
      intro hd
      cases hc : a.changed id with
      | false => rfl
      | true => have := ha2 (by rw [hrefs]; exact h1) hc; rw [hd] at this; cases this
    have hna : B.isAcquired = false := by simp [SB.isAcquired, B4, h1]
    by_cases hk : (dirty || (s.st.blocks id).dirty) = true ∨ (s.st.blocks id).ext ≠ none
    · have hcond : (B.dirty || B.isExternal) = true := by
        rcases hk with hk | hk
        · rw [B3, hk]; rfl
        · obtain ⟨e, he⟩ := Option.ne_none_iff_exists'.1 hk
          simp only [SB.isExternal, B2, he]
          cases B.dirty <;> rfl
      refine ⟨{ s with st := { s.st.set id B with evict := insertEvict s.st.evict (pr B) id } }, ?_, ?_, rfl⟩
      · simp only [release, Nat.not_le.2 hid, if_false, hb, if_true, hB, hna, Bool.false_eq_true]
        rw [B3] at hcond
        simp only [hcond, if_true]
        rfl
      · refine ⟨hc1.congr rfl rfl rfl rfl rfl rfl rfl, h.le, ⟨insert_nodup _ id h.ev.nd, fun i hm => ?_, fun i => ?_⟩, fun i => ?_, hheld, hpd⟩
        · rw [insert_ids] at hm
          show ((s.st.set id B).blocks i).int ≠ none ∧ ((s.st.set id B).blocks i).refs = 0
          by_cases e : i = id
          · subst e; rw [set_same, B1, B4]; exact ⟨by simp, by omega⟩
          · rw [set_other _ _ e]
            rcases hm with hm | hm
            · exact h.ev.mem i hm
            · exact absurd hm e
        · show ((s.st.set id B).blocks i).int ≠ none → ((s.st.set id B).blocks i).refs = 0 → ((s.st.set id B).blocks i).dirty = true ∨ ((s.st.set id B).blocks i).ext ≠ none
          by_cases e : i = id
          · subst e; rw [set_same, B2, B3]; exact fun _ _ => hk
          · rw [set_other _ _ e]; exact h.ev.valid i
        · by_cases e : i = id
          · subst e
            have hbl : ({ s.st.set i B with evict := insertEvict s.st.evict (pr B) i } : St D).blocks i = B := by simp [St.set]
            refine ⟨?_, ?_, ?_, fun hl => ?_⟩
            · rw [hbl, B4]; exact hn1
            · rw [hbl, B4]; intro q hc; omega
            · rw [hbl]; exact hbad
            · have hl' : dirty = false → a.lost i = false := by intro hd; rw [hn5, hd] at hl; exact hl
              refine ⟨?_, ?_, ?_, ?_⟩
              · rw [hbl, B4]; exact hn1
              · rw [hbl, B1]
                intro q _ hq
                cases hq
                rw [hn4]
                cases dirty with
                | true => rfl
                | false =>
                  obtain ⟨k1, k2⟩ := (((h.ok i).good (hl' rfl)).used p hr hp).2 (hch rfl)
                  simp only [Bool.false_eq_true, if_false]
                  show a.data i = some (s.st.mem p)
                  simp only [Bool.false_or] at hk
                  cases hd : (s.st.blocks i).dirty with
                  | true => rw [k1, hd]; rfl
                  | false =>
                    rw [hd] at k1 hk
                    simp only [Bool.false_eq_true, if_false, false_or] at k1 hk
                    obtain ⟨e, he⟩ := Option.ne_none_iff_exists'.1 hk
                    rw [he] at k1
                    simp only [Option.map_some] at k1
                    rw [k2, k1]; rfl
              · rw [hbl, B2, B3]
                intro _ hd
                simp only [Bool.or_eq_false_iff] at hd
                obtain ⟨hd1, hd2⟩ := hd
                rw [hn4, hd1]
                obtain ⟨k1, k2⟩ := (((h.ok i).good (hl' hd1)).used p hr hp).2 (hch hd1)
                rw [hd2] at k1
                exact k1
              · rw [hbl, B4]; intro q hc; omega
          · obtain ⟨n1, n2, n3, n4, n5⟩ := hnext i e
            exact okf_frame (h.ok i) (by simp [St.set, e]) (fun _ _ => rfl) (fun _ _ _ _ => rfl) n1 n2 n3 n4 n5
    · simp only [not_or, Bool.not_eq_true, Bool.or_eq_false_iff, ne_eq, Classical.not_not] at hk
      obtain ⟨⟨hd1, hd2⟩, hx⟩ := hk
      subst hd1
      have Bd : B.dirty = false := by rw [B3, hd2]; rfl
      have hl : a.lost id = false := by
        cases hl : a.lost id with
        | false => rfl
        | true => exact absurd hx ((h.ok id).bad hl).1
      have hcond : (B.dirty || B.isExternal) = false := by simp [SB.isExternal, B2, hx, Bd]
      have hev : B.isEvictable = true := by simp [SB.isEvictable, SB.isInternal, hna, B1]
      have hn : id ∉ s.st.evict.map (·.2) := fun hm => by have := (h.ev.mem id hm).2; omega
      -- the state before the internal block is taken away
      have hmid : FInv dflt { s with st := s.st.set id { B with int := none } } a' (some p) := by
        have hc2 := core_drop hc1 id p (by show ((s.st.set id B).blocks id).int = _; rw [set_same]; exact B1) (by show ((s.st.set id B).blocks id).refs = _; rw [set_same, B4]; omega)
          (by show ((s.st.set id B).blocks id).dirty = _; rw [set_same]; exact Bd)
        have hss : fix ((s.st.set id B).set id { (s.st.set id B).blocks id with int := none }) = fix (s.st.set id { B with int := none }) := by
          rw [set_same]
          simp only [fix, St.set]
          congr 1
          funext j
          by_cases e : j = id <;> simp [e]
        refine ⟨by rw [← hss]; exact hc2, h.le, ⟨h.ev.nd, fun i hm => ?_, fun i => ?_⟩, fun i => ?_, hheld, fun x hxp => ⟨fun i hi => ?_, (hpd x hxp).2⟩⟩
        · have := h.ev.mem i hm
          by_cases e : i = id
          · subst e; omega
          · rw [set_other _ _ e]; exact this
        · by_cases e : i = id
          · subst e; rw [set_same]; simp
          · rw [set_other _ _ e]; exact h.ev.valid i
        · by_cases e : i = id
          · subst e
            refine ⟨?_, ?_, ?_, fun _ => ⟨?_, ?_, ?_, ?_⟩⟩
            · rw [set_same]; exact hn1.trans B4.symm
            · rw [set_same]; intro q _ hq; cases hq
            · rw [hn5]; simp [hl]
            · rw [set_same]; exact hn1.trans B4.symm
            · rw [set_same]; intro q _ hq; cases hq
            · rw [set_same]
              intro _ _
              obtain ⟨k1, k2⟩ := (((h.ok i).good hl).used p hr hp).2 (hch rfl)
              rw [hd2] at k1
              rw [hn4]
              show a.data i = B.ext.map s.st.disk
              rw [B2]
              exact k1
            · rw [set_same]; intro q _ hq; cases hq
          · obtain ⟨n1, n2, n3, n4, n5⟩ := hnext i e
            exact okf_frame (h.ok i) (set_other _ _ e) (fun _ _ => rfl) (fun _ _ _ _ => rfl) n1 n2 n3 n4 n5
        · by_cases e : i = id
          · subst e
            rw [set_same] at hi
            rw [show ({ B with int := none } : SB).ext = B.ext from rfl, B2, hx] at hi; cases hi
          · have := (hpd x hxp).1 i
            rw [set_other _ _ e] at this hi ⊢
            exact this hi
      refine ⟨giveBack { s with st := s.st.set id { B with int := none } } p, ?_, giveBack_inv hmid, rfl⟩
      have hdet : detach E { s with st := s.st.set id B } id = .ok p { s with st := s.st.set id { B with int := none } } := by
        unfold detach
        simp only [set_same, hev, if_true, clean, Bd, Bool.false_eq_true, if_false, R.bind, takeInt, B1]
        simp only [St.set]
        congr 2
        congr 1
        funext j
        by_cases e : j = id <;> simp [e]
      rw [B3] at hcond
      simp only [release, Nat.not_le.2 hid, if_false, hb, if_true, hB, hna, Bool.false_eq_true]
      simp only [hcond, Bool.false_eq_true, if_false]
      rw [hdet]
      rfl

/-- Block `id` becomes another one that is not internal. -/
theorem finv_upd {dflt : D} {s : FSt D} {a a' : FAbs D} (h : FInv dflt s a none) (id : Nat) (t : St D) (hc : Core (fix t) none)
    (hle : t.next + t.remaining ≤ t.max) (hb : ∀ j, j ≠ id → t.blocks j = s.st.blocks j) (hm : t.mem = s.st.mem) (hdk : t.disk = s.st.disk)
    (hnd : (t.evict.map (·.2)).Nodup) (hev : ∀ i ∈ t.evict.map (·.2), i ∈ s.st.evict.map (·.2) ∧ i ≠ id) (ht : (t.blocks id).int = none) (hok : OkF dflt t a' id)
    (ha : ∀ i, i ≠ id → a'.data i = a.data i ∧ a'.refs i = a.refs i ∧ a'.work i = a.work i ∧ a'.changed i = a.changed i ∧ a'.lost i = a.lost i)
    (hheld : ∀ e, (a'.held e ≠ none ↔ e ∈ t.held) ∧ (a'.lostHeld e = false → ∀ d, a'.held e = some d → t.disk e = d))
    (hp1 : ∀ x ∈ s.pend, (t.blocks id).ext = some x.2 → a'.lost id = true) (hp2 : ∀ x ∈ s.pend, x.2 ∈ t.held → a'.lostHeld x.2 = true) :
    FInv dflt { s with st := t } a' none := by
  refine ⟨hc, hle, ⟨hnd, fun i hi => ?_, fun i => ?_⟩, fun i => ?_, hheld, fun x hx => ⟨fun i hi => ?_, hp2 x hx⟩⟩
  · obtain ⟨h1, h2⟩ := hev i hi
    show (t.blocks i).int ≠ none ∧ (t.blocks i).refs = 0
    rw [hb i h2]; exact h.ev.mem i h1
  · show (t.blocks i).int ≠ none → (t.blocks i).refs = 0 → (t.blocks i).dirty = true ∨ (t.blocks i).ext ≠ none
    by_cases e : i = id
    · subst e; rw [ht]; simp
    · rw [hb i e]; exact h.ev.valid i
  · by_cases e : i = id
    · subst e; exact hok
    · obtain ⟨n1, n2, n3, n4, n5⟩ := ha i e
      exact okf_frame (h.ok i) (hb i e) (fun _ _ => congrFun hm _) (fun _ _ _ _ => congrFun hdk _) n1 n2 n3 n4 n5
  · show a'.lost i = true ∨ (t.blocks i).dirty = true
    by_cases e : i = id
    · subst e; exact .inl (hp1 x hx hi)
    · have hi : (t.blocks i).ext = some x.2 := hi
      rw [hb i e] at hi ⊢
      rw [(ha i e).2.2.2.2]
      exact (h.pend x hx).1 i hi

/-- What is known of a block without data. -/
theorem okf_empty {dflt : D} {t : St D} {a' : FAbs D} {id : Nat} (hb : t.blocks id = {}) (h1 : a'.refs id = 0) (h2 : a'.data id = none)
    (h3 : a'.lost id = false) : OkF dflt t a' id := by
  refine ⟨by rw [hb, h1], by rw [hb]; simp, by rw [h3]; simp, fun _ => ⟨by rw [hb, h1], by rw [hb]; simp, by rw [hb, h2]; simp, by rw [hb]; simp⟩⟩

theorem deinit_spec {dflt : D} {s : FSt D} {a : FAbs D} (h : FInv dflt s a none) (id : Nat) (hid : id < s.st.n) (ha : a.refs id = 0) :
    ∃ t, Swap.deinit s.st id = some t ∧ FInv dflt { s with st := t } { a with data := upd a.data id none, lost := upd a.lost id false } none ∧ t.blocks id = {} := by
  have hr : (s.st.blocks id).refs = 0 := by rw [← (h.ok id).refs]; exact ha
  have hna : (s.st.blocks id).isAcquired = false := by simp [SB.isAcquired, hr]
  have hext : ∀ j e, j ≠ id → (s.st.blocks j).ext = some e → e ∉ s.st.held := fun j e _ hx => (h.core.extLive j e hx).2
  cases hp : (s.st.blocks id).int with
  | none =>
    refine ⟨s.st.set id {}, ?_, ?_, by simp⟩
    · simp only [Swap.deinit, Nat.not_le.2 hid, if_false, hna, SB.isEvictable, SB.isInternal, hp, Bool.false_eq_true]
      rfl
    · refine finv_upd h id _ (core_ext h.core id {} s.st.held hp.symm (by simp) (by simp) (by simp) hext) h.le (fun j hj => set_other _ _ hj) rfl rfl h.ev.nd
        (fun i hi => ⟨hi, ?_⟩) (by simp) (okf_empty (by simp) ha (by simp) (by simp)) (fun i hi => ⟨upd_other _ _ hi, rfl, rfl, rfl, upd_other _ _ hi⟩) h.held
        (fun x _ hc => by simp at hc) (fun x hx => (h.pend x hx).2)
      rintro rfl
      exact (h.ev.mem i hi).1 hp
  | some p =>
    refine ⟨Swap.giveBack (({ s.st with evict := eraseEvict s.st.evict id }).set id {}) p, ?_, ?_, by simp [Swap.giveBack, St.set]⟩
    · simp only [Swap.deinit, Nat.not_le.2 hid, if_false, hna, SB.isEvictable, SB.isInternal, hp, Bool.false_eq_true]
      rfl
    · refine finv_upd h id _ ?_ h.le (fun j hj => set_other _ _ hj) rfl rfl (erase_nodup id h.ev.nd)
        (fun i hi => (erase_ids _ _ _).1 hi) (by simp [Swap.giveBack, St.set]) (okf_empty (by simp [Swap.giveBack, St.set]) ha (by simp) (by simp)) (fun i hi => ⟨upd_other _ _ hi, rfl, rfl, rfl, upd_other _ _ hi⟩) h.held
        (fun x _ hc => by simp [Swap.giveBack, St.set] at hc) (fun x hx => (h.pend x hx).2)
      have c1 := core_ext h.core id { int := some p } s.st.held hp.symm (by simp) (by simp) (by simp) hext
      have c2 := core_drop c1 id p (by show ((s.st.set id { int := some p }).blocks id).int = _; rw [set_same])
        (by show ((s.st.set id { int := some p }).blocks id).refs = _; rw [set_same]) (by show ((s.st.set id { int := some p }).blocks id).dirty = _; rw [set_same])
      have c3 := giveBack_core c2
      refine c3.congr rfl rfl rfl rfl rfl ?_ rfl
      funext j
      by_cases e : j = id <;> simp [Swap.giveBack, St.set, fix, e]

theorem init_spec {dflt : D} {s : FSt D} {a : FAbs D} (h : FInv dflt s a none) (id : Nat) (e : Option Nat) (hid : id < s.st.n)
    (ha : Swap.Allowed a.toAbs (.init id e)) :
    ∃ t, Swap.initialize_ s.st id e = some t ∧ FInv dflt { s with st := t } (a.next (.init id e) .unit) none := by
  obtain ⟨ha1, ha2, ha3⟩ := ha
  have hr : (s.st.blocks id).refs = 0 := by rw [← (h.ok id).refs]; exact ha1
  have hl : a.lost id = false := by
    cases hl : a.lost id with
    | false => rfl
    | true => exact absurd ha2 ((h.ok id).bad hl).2.2
  have hg := (h.ok id).good hl
  have hi : (s.st.blocks id).int = none := by
    cases hp : (s.st.blocks id).int with
    | none => rfl
    | some p => rw [hg.idleIn p hr hp] at ha2; cases ha2
  have hdy : (s.st.blocks id).dirty = false := by
    cases hp : (s.st.blocks id).dirty with
    | false => rfl
    | true => exact absurd hi (h.core.dirtyInt id hp)
  have he : (s.st.blocks id).ext = none := by
    rw [hg.idleOut hr hdy] at ha2
    cases hx : (s.st.blocks id).ext with
    | none => rfl
    | some e => rw [hx] at ha2; cases ha2
  have hb : s.st.blocks id = {} := by
    generalize s.st.blocks id = b at *
    cases b
    simp_all
  have hnl : ∀ x, e = some x → x ∈ s.st.held := fun x hx => (h.held x).1.1 (ha3 x hx)
  refine ⟨{ (s.st.set id { ext := e }) with held := s.st.held.filter (fun x => some x != e) }, ?_, ?_⟩
  · simp [Swap.initialize_, Nat.not_le.2 hid, hb, SB.isInitialized, SB.isInternal, SB.isExternal]
  have hcore := core_ext h.core id { ext := e } (s.st.held.filter (fun x => some x != e)) hi.symm (by simp) (by simp)
    (fun x hx => ⟨hid, by simp [← hx], fun j hj hc => (h.core.extLive j x hc).2 (hnl x hx)⟩)
    (fun j x _ hc hm => (h.core.extLive j x hc).2 (List.mem_filter.1 hm).1)
  have hev : ∀ i ∈ s.st.evict.map (·.2), i ∈ s.st.evict.map (·.2) ∧ i ≠ id := by
    intro i hm
    refine ⟨hm, ?_⟩
    rintro rfl
    exact (h.ev.mem i hm).1 hi
  have hbl : ∀ (l : List Nat) (b : SB), ({ s.st.set id b with held := l }).blocks id = b := by intro l b; simp [St.set]
  have hblo : ∀ (l : List Nat) (b : SB) j, j ≠ id → ({ s.st.set id b with held := l }).blocks j = s.st.blocks j := by intro l b j hj; simp [St.set, hj]
  cases e with
  | none =>
    refine finv_upd h id _ hcore h.le (hblo _ _) rfl rfl h.ev.nd hev (by rw [hbl]) (okf_empty (hbl _ _) ha1 ha2 hl) (fun i hi => ⟨rfl, rfl, rfl, rfl, rfl⟩) ?_
      (fun x _ hc => by rw [hbl] at hc; cases hc) (fun x hx hc => (h.pend x hx).2 ?_)
    · simpa [FAbs.next, Abs.next] using h.held
    · simpa using hc
  | some y =>
    have hy := hnl y rfl
    refine finv_upd h id _ hcore h.le (hblo _ _) rfl rfl h.ev.nd hev (by rw [hbl]) ⟨?_, ?_, ?_, fun hl' => ⟨?_, ?_, ?_, ?_⟩⟩
      (fun i hi => ⟨upd_other _ _ hi, rfl, rfl, rfl, upd_other _ _ hi⟩) (fun x => ?_)
      (fun x hx hc => ?_) (fun x hx hc => ?_)
    · rw [hbl]; exact ha1
    · rw [hbl]; simp
    · rw [hbl]; intro _; exact ⟨by simp, rfl, by simpa [FAbs.next, Abs.next] using ha3 y rfl⟩
    · rw [hbl]; exact ha1
    · rw [hbl]; simp
    · rw [hbl]
      intro _ _
      simp only [FAbs.next, upd_same] at hl'
      simp only [FAbs.next, Abs.next, upd_same, Option.map_some]
      cases hx : a.held y with
      | none => exact absurd hx (ha3 y rfl)
      | some d => exact congrArg some ((h.held y).2 hl' d hx).symm
    · rw [hbl]; simp
    · by_cases exy : x = y
      · subst exy; simp [FAbs.next, Abs.next]
      · simp only [FAbs.next, Abs.next, upd_other _ _ exy, List.mem_filter]
        refine ⟨by rw [(h.held x).1]; simp [exy], (h.held x).2⟩
    · rw [hbl] at hc
      cases hc
      simp only [FAbs.next, upd_same]
      exact (h.pend x hx).2 hy
    · have hm := List.mem_filter.1 hc
      have : x.2 ≠ y := by rintro rfl; simp at hm
      simp only [FAbs.next, upd_other _ _ this]
      exact (h.pend x hx).2 hm.1

theorem extract_spec (E : Env D) (hE : ∀ l, E.pick l ∉ l) {dflt : D} {s : FSt D} {a : FAbs D} (h : FInv dflt s a none) (id : Nat) (hid : id < s.st.n)
    (ha : a.refs id = 0) :
    (∃ hit s1, extract E s id = .throws hit s1 ∧ FInv dflt s1 (a.lose hit) none ∧ Fewer s s1) ∨
      ∃ e s1, extract E s id = .ok e s1 ∧ FInv dflt s1 (a.next (.extract id) (.ext e)) none ∧ Expected dflt a (.extract id) (.ext e) ∧ Fewer s s1 := by
  have hr : (s.st.blocks id).refs = 0 := by rw [← (h.ok id).refs]; exact ha
  -- the second half
  have rest : ∀ s2 : FSt D, FInv dflt s2 a none → Fewer s s2 → (s2.st.blocks id).int = none → id < s2.st.n → ∀ e s3, s3 = { s2 with st := { (s2.st.set id { s2.st.blocks id with ext := none }) with held := (s2.st.blocks id).ext.toList ++ s2.st.held } } →
      e = (s2.st.blocks id).ext → FInv dflt s3 (a.next (.extract id) (.ext e)) none ∧ Expected dflt a (.extract id) (.ext e) ∧ Fewer s s3 := by
    intro s2 h2 hf hi hn e s3 es ee
    subst es
    have hr2 : (s2.st.blocks id).refs = 0 := by rw [← (h2.ok id).refs]; exact ha
    have hd2 : (s2.st.blocks id).dirty = false := by
      cases hp : (s2.st.blocks id).dirty with
      | false => rfl
      | true => exact absurd hi (h2.core.dirtyInt id hp)
    have hcore := core_ext h2.core id { s2.st.blocks id with ext := none } ((s2.st.blocks id).ext.toList ++ s2.st.held) rfl (by simp [hd2]) (by simp [hr2]) (by simp)
      (fun j x hj hx hm => by
        rcases List.mem_append.1 hm with hm | hm
        · exact hj (h2.core.extOwn j id x hx (Option.mem_toList.1 hm))
        · exact (h2.core.extLive j x hx).2 hm)
    have hbl : ∀ (l : List Nat) (b : SB), ({ s2.st.set id b with held := l }).blocks id = b := by intro l b; simp [St.set]
    have hblo : ∀ (l : List Nat) (b : SB) j, j ≠ id → ({ s2.st.set id b with held := l }).blocks j = s2.st.blocks j := by intro l b j hj; simp [St.set, hj]
    have hev : ∀ i ∈ s2.st.evict.map (·.2), i ∈ s2.st.evict.map (·.2) ∧ i ≠ id := by
      intro i hm
      refine ⟨hm, ?_⟩
      rintro rfl
      exact (h2.ev.mem i hm).1 hi
    have hemp : ({ s2.st.blocks id with ext := none } : SB) = {} := by
      generalize s2.st.blocks id = b at *
      cases b
      simp_all
    cases hx : (s2.st.blocks id).ext with
    | none =>
      rw [hx] at ee
      subst ee
      have hl : a.lost id = false := by
        cases hl : a.lost id with
        | false => rfl
        | true => exact absurd hx ((h2.ok id).bad hl).1
      have hda : a.data id = none := by rw [((h2.ok id).good hl).idleOut hr2 hd2, hx]; rfl
      refine ⟨?_, by simp [Expected, Swap.Expected, hda], hf⟩
      rw [hx] at hcore
      exact finv_upd h2 id _ hcore h2.le (hblo _ _) rfl rfl h2.ev.nd hev (by rw [hbl]; exact hi) (okf_empty (by rw [hbl]; exact hemp) ha hda hl) (fun i hi => ⟨rfl, rfl, rfl, rfl, rfl⟩) h2.held
        (fun x _ hc => by rw [hbl] at hc; cases hc) (fun x hx => (h2.pend x hx).2)
    | some y =>
      rw [hx] at ee
      subst ee
      have hnm : y ∉ s2.st.held := (h2.core.extLive id y hx).2
      have hdn : a.data id ≠ none := by
        cases hl : a.lost id with
        | true => exact ((h2.ok id).bad hl).2.2
        | false => rw [((h2.ok id).good hl).idleOut hr2 hd2, hx]; simp
      refine ⟨?_, ?_, hf⟩
      · rw [hx] at hcore
        refine finv_upd h2 id _ hcore h2.le (hblo _ _) rfl rfl h2.ev.nd hev (by rw [hbl]; exact hi)
          (okf_empty (by rw [hbl]; exact hemp) ha (by simp [FAbs.next, Abs.next]) (by simp [FAbs.next]))
          (fun i hi => ⟨upd_other _ _ hi, rfl, rfl, rfl, upd_other _ _ hi⟩) (fun x => ?_) (fun x _ hc => by rw [hbl] at hc; cases hc) (fun x hxp hc => ?_)
        · simp only [FAbs.next, Abs.next, Option.toList_some, List.singleton_append, List.mem_cons]
          by_cases exy : x = y
          · subst exy
            rw [upd_same, upd_same]
            refine ⟨by simp [hdn], fun hl d hd => ?_⟩
            rw [((h2.ok id).good hl).idleOut hr2 hd2, hx] at hd
            simpa using hd
          · rw [upd_other _ _ exy, upd_other _ _ exy]
            simp only [exy, false_or]
            exact h2.held x
        · simp only [FAbs.next]
          by_cases exy : x.2 = y
          · rw [exy, upd_same]
            rcases (h2.pend x hxp).1 id (by rw [exy]; exact hx) with h' | h'
            · exact h'
            · rw [hd2] at h'; cases h'
          · rw [upd_other _ _ exy]
            refine (h2.pend x hxp).2 ?_
            simpa [exy] using hc
      · simp only [Expected, Swap.Expected, hdn, if_false]
        refine ⟨y, rfl, ?_⟩
        cases hh : a.held y with
        | none => rfl
        | some d => exact absurd ((h2.held y).1.1 (by rw [hh]; simp)) hnm
  cases hp : (s.st.blocks id).int with
  | none =>
    have hx : extract E s id = .ok (s.st.blocks id).ext { s with st := { (s.st.set id { s.st.blocks id with ext := none }) with held := (s.st.blocks id).ext.toList ++ s.st.held } } := by
      simp [extract, Nat.not_le.2 hid, SB.isEvictable, SB.isInternal, hp, R.bind]
    exact .inr ⟨_, _, hx, rest s h (Fewer.refl s) hp hid _ _ rfl rfl⟩
  | some p =>
    have hevi : (s.st.blocks id).isEvictable = true := by simp [SB.isEvictable, SB.isAcquired, SB.isInternal, hp, hr]
    have hint : (s.st.blocks id).isInternal = true := by simp [SB.isInternal, hp]
    have h1 := finv_evict h s.st.mode (eraseEvict s.st.evict id) (erase_nodup id h.ev.nd) (fun i hi => h.ev.mem i ((erase_ids _ _ _).1 hi).1)
    have hnd : id ∉ (eraseEvict s.st.evict id).map (·.2) := fun hm => ((erase_ids _ _ _).1 hm).2 rfl
    rcases detach_spec E hE h1 id p hr hp hnd with ⟨hit, s1, g1, g2, g3, g4, g5⟩ | ⟨s1, g1, g2, g3, g4, g5⟩
    · refine .inl ⟨hit, s1, ?_, g2, fun x hx => g3.fewer x hx⟩
      simp only [extract, Nat.not_le.2 hid, if_false, hevi, hint, if_true]
      rw [g1]; rfl
    · have hx : extract E s id = .ok ((giveBack s1 p).st.blocks id).ext { giveBack s1 p with st := { ((giveBack s1 p).st.set id { (giveBack s1 p).st.blocks id with ext := none }) with held := ((giveBack s1 p).st.blocks id).ext.toList ++ (giveBack s1 p).st.held } } := by
        simp only [extract, Nat.not_le.2 hid, if_false, hevi, hint, if_true]
        rw [g1]; rfl
      exact .inr ⟨_, _, hx, rest (giveBack s1 p) (giveBack_inv g2) (fun x hx => g3.fewer x hx) g4 (by show id < s1.st.n; rw [g3.n]; exact hid) _ _ rfl rfl⟩

theorem alloc_spec {dflt : D} {s : FSt D} {a : FAbs D} (h : FInv dflt s a none) : FInv dflt { s with st := (Swap.alloc s.st).2 } a none := by
  unfold Swap.alloc
  cases hf : s.st.freeIds with
  | cons x rest =>
    exact ⟨h.core.congr rfl rfl rfl rfl rfl rfl rfl, h.le, ⟨h.ev.nd, h.ev.mem, h.ev.valid⟩, fun i => okf_frame (h.ok i) rfl (fun _ _ => rfl) (fun _ _ _ _ => rfl) rfl rfl rfl rfl rfl, h.held, h.pend⟩
  | nil =>
    have c := h.core
    have hi : (s.st.blocks s.st.n).int = none := by
      cases hp : (s.st.blocks s.st.n).int with
      | none => rfl
      | some p => exact absurd (c.att _ p hp).1 (Nat.lt_irrefl _)
    have he : (s.st.blocks s.st.n).ext = none := by
      cases hp : (s.st.blocks s.st.n).ext with
      | none => rfl
      | some p => exact absurd (c.extLive _ p hp).1 (Nat.lt_irrefl _)
    have hb : s.st.blocks s.st.n = {} := by
      have h1 : (s.st.blocks s.st.n).dirty = true → (s.st.blocks s.st.n).int ≠ none := c.dirtyInt s.st.n
      have h2 : 0 < (s.st.blocks s.st.n).refs → (s.st.blocks s.st.n).int ≠ none := c.refsInt s.st.n
      generalize s.st.blocks s.st.n = b at *
      cases b
      simp_all
    have hbl : (fun j => if j = s.st.n then ({} : SB) else s.st.blocks j) = s.st.blocks := by
      funext j; by_cases e : j = s.st.n
      · rw [if_pos e, e, hb]
      · rw [if_neg e]
    simp only [hbl]
    refine ⟨⟨c.total, c.freeNd, c.freeLt, fun i p hp => ?_, c.inj, c.handOk, c.cover, c.dirtyInt, c.refsInt, c.extOwn, fun i e hx => ?_⟩, h.le, ⟨h.ev.nd, h.ev.mem, h.ev.valid⟩,
      fun i => okf_frame (h.ok i) rfl (fun _ _ => rfl) (fun _ _ _ _ => rfl) rfl rfl rfl rfl rfl, h.held, h.pend⟩
    · obtain ⟨x1, x2⟩ := c.att i p hp; exact ⟨Nat.lt_succ_of_lt x1, x2⟩
    · obtain ⟨x1, x2⟩ := c.extLive i e hx; exact ⟨Nat.lt_succ_of_lt x1, x2⟩

theorem client_spec (E : Env D) (hE : ∀ l, E.pick l ∉ l) {dflt : D} {s : FSt D} {a : FAbs D} (h : FInv dflt s a none) (d : D) :
    FInv dflt (clientBlock E s d).2 (a.next (.client d) (.ext (some (clientBlock E s d).1))) none ∧
      Expected dflt a (.client d) (.ext (some (clientBlock E s d).1)) ∧ Fewer s (clientBlock E s d).2 := by
  have hl : E.pick s.st.live ∉ s.st.live := hE s.st.live
  have hfr : E.pick s.st.live ∉ s.st.held := fun hm => hl (List.mem_append.2 (.inr hm))
  have hext : ∀ i, (s.st.blocks i).ext ≠ some (E.pick s.st.live) := fun i hx => hl (mem_live (s := fix s.st) h.core hx)
  obtain ⟨dk, k', g1, g2⟩ := settle_form E s (E.pick s.st.live)
  have hc : clientBlock E s d = (E.pick s.st.live, ⟨{ s.st with disk := fun j => if j = E.pick s.st.live then d else dk j, held := E.pick s.st.live :: s.st.held }, k', s.pend.filter (fun x => x.2 != E.pick s.st.live)⟩) := by
    simp only [clientBlock, g1, setDisk]
  generalize E.pick s.st.live = e at *
  rw [hc]
  have c := h.core
  refine ⟨⟨⟨c.total, c.freeNd, c.freeLt, c.att, c.inj, c.handOk, c.cover, c.dirtyInt, c.refsInt, c.extOwn, fun i x hx => ?_⟩, h.le, ⟨h.ev.nd, h.ev.mem, h.ev.valid⟩, fun i => ?_, fun x => ?_, fun x hx => ?_⟩, ⟨e, rfl, ?_⟩, fun x hx => (List.mem_filter.1 hx).1⟩
  · obtain ⟨x1, x2⟩ := c.extLive i x hx
    refine ⟨x1, fun hm => ?_⟩
    rcases List.mem_cons.1 hm with rfl | hm
    · exact hext i hx
    · exact x2 hm
  · refine okf_frame (h.ok i) rfl (fun _ _ => rfl) (fun _ _ x hx => ?_) rfl rfl rfl rfl rfl
    have : x ≠ e := by rintro rfl; exact hext i hx
    simp [this, g2 x this]
  · simp only [FAbs.next, Abs.next]
    by_cases exy : x = e
    · subst exy; simp
    · rw [upd_other _ _ exy, upd_other _ _ exy]
      simp only [List.mem_cons, exy, false_or, if_false, g2 x exy]
      exact h.held x
  · have hm := List.mem_filter.1 hx
    have hne : x.2 ≠ e := by simpa using hm.2
    refine ⟨(h.pend x hm.1).1, fun hc => ?_⟩
    simp only [FAbs.next, upd_other _ _ hne]
    refine (h.pend x hm.1).2 ?_
    simpa [hne] using hc
  · cases hh : a.held e with
    | none => rfl
    | some x => exact absurd ((h.held _).1.1 (by rw [hh]; simp)) hfr

/-! ### `flush` -/

theorem lose_congr (a : FAbs D) {l l' : List Nat} (h : ∀ i, i ∈ l ↔ i ∈ l') : a.lose l = a.lose l' := by
  unfold FAbs.lose
  congr 1
  funext i
  simp [h i]

theorem lose_lose (a : FAbs D) (l l' : List Nat) : (a.lose l).lose l' = a.lose (l' ++ l) := by
  unfold FAbs.lose
  congr 1
  funext i
  simp [Bool.or_assoc]

theorem detach_clean (E : Env D) {s : FSt D} {id p : Nat} (hr : (s.st.blocks id).refs = 0) (hp : (s.st.blocks id).int = some p)
    (hd : (s.st.blocks id).dirty = false) : detach E s id = .ok p { s with st := s.st.set id { s.st.blocks id with int := none } } := by
  have hev : (s.st.blocks id).isEvictable = true := by simp [SB.isEvictable, SB.isAcquired, SB.isInternal, hp, hr]
  simp [detach, hev, clean, hd, R.bind, takeInt, hp]

/-- The requests made so far by `flush`. -/
structure Flight (s : FSt D) (a : FAbs D) (l : List Made) : Prop where
  nd : (l.map (·.id)).Nodup
  lost : ∀ m ∈ l, a.lost m.id = false
  ext : ∀ m ∈ l, (s.st.blocks m.id).ext = some m.e
  int : ∀ m ∈ l, (s.st.blocks m.id).int = none
  refs : ∀ m ∈ l, (s.st.blocks m.id).refs = 0
  data : ∀ m ∈ l, a.data m.id = some (s.st.mem m.p)

/-- Requests left in flight. -/
theorem abandon_inv {dflt : D} {s : FSt D} {a : FAbs D} {l : List Made} (hit : List Nat) (h : FInv dflt s (a.lose hit) none) (hl : ∀ m ∈ l, m.id ∈ hit)
    (hx : ∀ m ∈ l, (s.st.blocks m.id).ext = some m.e) : FInv dflt { s with pend := s.pend ++ l.map (fun m => (m.p, m.e)) } (a.lose hit) none := by
  refine ⟨h.core, h.le, h.ev, h.ok, h.held, fun x hm => ?_⟩
  rcases List.mem_append.1 hm with hm | hm
  · exact h.pend x hm
  · obtain ⟨m, hm', rfl⟩ := List.mem_map.1 hm
    have he := hx m hm'
    refine ⟨fun i hi => .inl ?_, fun hc => absurd hc (h.core.extLive m.id m.e he).2⟩
    have : i = m.id := h.core.extOwn i m.id m.e hi he
    subst this
    simp [FAbs.lose, hl m hm']

theorem flushOne_spec (E : Env D) (hE : ∀ l, E.pick l ∉ l) {dflt : D} {s : FSt D} {a : FAbs D} {l : List Made} (h : FInv dflt s (a.lose (l.map (·.id))) none)
    (hl : Flight s a l) (id p : Nat) (hr : (s.st.blocks id).refs = 0) (hp : (s.st.blocks id).int = some p) (hn : id ∉ s.st.evict.map (·.2)) :
    (∃ hit s1, flushOne E s id l = .throws hit s1 ∧ FInv dflt s1 (a.lose hit) none) ∨
      ∃ l1 s1, flushOne E s id l = .ok l1 s1 ∧ FInv dflt s1 (a.lose (l1.map (·.id))) none ∧ Flight s1 a l1 ∧ s1.pend = s.pend ∧ s1.st.evict = s.st.evict ∧ s1.st.mode = s.st.mode := by
  have hne : ∀ m ∈ l, m.id ≠ id := by
    rintro m hm rfl
    rw [hl.int m hm] at hp; cases hp
  cases hd : (s.st.blocks id).dirty with
  | false =>
    refine .inr ⟨l, giveBack { s with st := s.st.set id { s.st.blocks id with int := none } } p, ?_, giveBack_inv (take_inv h id p hr hp hd hn), ?_, rfl, rfl, rfl⟩
    · simp only [flushOne, hd, Bool.false_eq_true, if_false, detach_clean E hr hp hd]
    · have hb : ∀ m ∈ l, (giveBack { s with st := s.st.set id { s.st.blocks id with int := none } } p).st.blocks m.id = s.st.blocks m.id := fun m hm => set_other _ _ (hne m hm)
      exact ⟨hl.nd, hl.lost, fun m hm => by rw [hb m hm]; exact hl.ext m hm, fun m hm => by rw [hb m hm]; exact hl.int m hm, fun m hm => by rw [hb m hm]; exact hl.refs m hm, hl.data⟩
  | true =>
    rcases startClean_spec E hE h id p hd hr hp with g | ⟨e, k', g, g1, g2, g3⟩
    · refine .inl ⟨[] ++ l.map (·.id), { s with k := s.k + 1, pend := s.pend ++ l.map (fun m => (m.p, m.e)) }, by simp only [flushOne, hd, if_true, g, abandon], ?_⟩
      exact abandon_inv _ (finv_k h (s.k + 1)) (fun m hm => List.mem_map.2 ⟨m, hm, rfl⟩) hl.ext
    · have hl2 : a.lost id = false := by
        cases hl2 : a.lost id with
        | false => rfl
        | true => rw [show (a.lose (l.map (·.id))).lost id = true by simp [FAbs.lose, hl2]] at g2; cases g2
      have hset : ∀ b : SB, (({ s with k := k', st := s.st.set id b } : FSt D).st.blocks id) = b := fun b => by simp
      have hdc := detach_clean E (s := { s with k := k', st := s.st.set id { s.st.blocks id with ext := some e, dirty := false } }) (id := id) (p := p)
        (by rw [hset]; exact hr) (by rw [hset]; exact hp) (by rw [hset])
      have htk := take_inv g1 id p (by rw [hset]; exact hr) (by rw [hset]; exact hp) (by rw [hset]) hn
      have hin : ((s.st.set id { s.st.blocks id with ext := some e, dirty := false }).blocks id).int = some p := by simp [hp]
      refine .inr ⟨l ++ [⟨id, p, e⟩], giveBack { s with k := k', st := (s.st.set id { s.st.blocks id with ext := some e, dirty := false }).set id { (s.st.set id { s.st.blocks id with ext := some e, dirty := false }).blocks id with int := none } } p, by simp only [flushOne, hd, if_true, g, hin, hdc], ?_, ?_, rfl, rfl, rfl⟩
      · rw [lose_lose] at htk
        rw [lose_congr a (l' := [id] ++ l.map (·.id)) (fun i => by simp [or_comm])]
        exact giveBack_inv htk
      · have hb : ∀ m ∈ l, (giveBack { s with k := k', st := (s.st.set id { s.st.blocks id with ext := some e, dirty := false }).set id { (s.st.set id { s.st.blocks id with ext := some e, dirty := false }).blocks id with int := none } } p).st.blocks m.id = s.st.blocks m.id := by
          intro m hm
          simp [giveBack, Swap.giveBack, St.set, hne m hm]
        have hbi : (giveBack { s with k := k', st := (s.st.set id { s.st.blocks id with ext := some e, dirty := false }).set id { (s.st.set id { s.st.blocks id with ext := some e, dirty := false }).blocks id with int := none } } p).st.blocks id = { s.st.blocks id with ext := some e, dirty := false, int := none } := by
          simp [giveBack, Swap.giveBack, St.set]
        have hor : ∀ m ∈ l ++ [(⟨id, p, e⟩ : Made)], m ∈ l ∨ m = ⟨id, p, e⟩ := fun m hm => by simpa using hm
        refine ⟨?_, fun m hm => ?_, fun m hm => ?_, fun m hm => ?_, fun m hm => ?_, fun m hm => ?_⟩
        · rw [List.map_append, List.nodup_append]
          refine ⟨hl.nd, by simp, ?_⟩
          intro x hx y hy hxy
          simp only [List.map_cons, List.map_nil, List.mem_singleton] at hy
          obtain ⟨m, hm, rfl⟩ := List.mem_map.1 hx
          exact hne m hm (hxy.trans hy)
        · rcases hor m hm with hm | rfl
          · exact hl.lost m hm
          · exact hl2
        · rcases hor m hm with hm | rfl
          · rw [hb m hm]; exact hl.ext m hm
          · rw [hbi]
        · rcases hor m hm with hm | rfl
          · rw [hb m hm]; exact hl.int m hm
          · rw [hbi]
        · rcases hor m hm with hm | rfl
          · rw [hb m hm]; exact hl.refs m hm
          · rw [hbi]; exact hr
        · rcases hor m hm with hm | rfl
          · exact hl.data m hm
          · exact g3

theorem flushLoop_spec (E : Env D) (hE : ∀ l, E.pick l ∉ l) {dflt : D} {a : FAbs D} (n : Nat) : ∀ {s : FSt D} {l : List Made}, FInv dflt s (a.lose (l.map (·.id))) none → Flight s a l →
    (∃ hit s1, flushLoop E n s l = .throws hit s1 ∧ FInv dflt s1 (a.lose hit) none) ∨
      ∃ l1 s1, flushLoop E n s l = .ok l1 s1 ∧ FInv dflt s1 (a.lose (l1.map (·.id))) none ∧ Flight s1 a l1 ∧ s1.pend = s.pend ∧ s1.st.evict.length = s.st.evict.length - n := by
  induction n with
  | zero => intro s l h hl; exact .inr ⟨l, s, rfl, h, hl, rfl, rfl⟩
  | succ n ih =>
    intro s l h hl
    simp only [flushLoop]
    cases hp : popEvict s.st.mode s.st.evict with
    | none => exact .inr ⟨l, s, rfl, h, hl, rfl, by rw [pop_none hp]; simp⟩
    | some xr =>
      obtain ⟨x, rest⟩ := xr
      obtain ⟨g1, g2, g3, ⟨p, g4⟩, g5⟩ := pop_inv h hp
      have hl' : Flight { s with st := { s.st with evict := rest } } a l := ⟨hl.nd, hl.lost, hl.ext, hl.int, hl.refs, hl.data⟩
      rcases flushOne_spec E hE g1 hl' x.2 p g3 g4 g2 with ⟨hit, s1, e1, e2⟩ | ⟨l1, s1, e1, e2, e3, e4, e5, _⟩
      · exact .inl ⟨hit, s1, by simp only [e1, R.bind], e2⟩
      · simp only [e1, R.bind]
        rcases ih e2 e3 with g | ⟨l2, s2, f1, f2, f3, f4, f5⟩
        · exact .inl g
        · refine .inr ⟨l2, s2, f1, f2, f3, f4.trans e4, ?_⟩
          rw [f5, e5, g5]
          show rest.length - n = _
          omega

theorem flushWait_spec (E : Env D) {dflt : D} {a : FAbs D} (l : List Made) : ∀ {s : FSt D}, FInv dflt s (a.lose (l.map (·.id))) none → Flight s a l →
    (∃ hit s1, flushWait E l s = .throws hit s1 ∧ FInv dflt s1 (a.lose hit) none) ∨
      ∃ s1, flushWait E l s = .ok () s1 ∧ FInv dflt s1 a none ∧ Fewer s s1 := by
  induction l with
  | nil => intro s h _; exact .inr ⟨s, rfl, by simpa using h, Fewer.refl s⟩
  | cons m rest ih =>
    intro s h hl
    have hm : m ∈ m :: rest := List.mem_cons_self
    obtain ⟨dk, k', w1, w2⟩ := writeSync_spec E h m.id m.p m.e (by simp [FAbs.lose]) (hl.ext m hm)
    have hnd := List.nodup_cons.1 hl.nd
    simp only [flushWait]
    rcases w2 with ⟨w2, w3⟩ | ⟨w2, w3, w4⟩
    · rw [w2]
      refine .inl ⟨_, _, rfl, ?_⟩
      rw [lose_congr a (l' := (m :: rest).map (·.id)) (fun i => by simp)]
      exact abandon_inv (l := rest.reverse) _ w3 (fun x hx => List.mem_map.2 ⟨x, by simp at hx; simp [hx], rfl⟩) (fun x hx => hl.ext x (by simp at hx; simp [hx]))
    · rw [w2]
      have := w4 (hl.refs m hm) (hl.data m hm) (fun q hq => by rw [hl.int m hm] at hq; cases hq)
      rw [List.map_cons, find_lose a m.id _ (hl.lost m hm) hnd.1] at this
      have hr : ∀ x ∈ rest, x ∈ m :: rest := fun x hx => List.mem_cons_of_mem _ hx
      rcases ih this ⟨hnd.2, fun x hx => hl.lost x (hr x hx), fun x hx => hl.ext x (hr x hx), fun x hx => hl.int x (hr x hx), fun x hx => hl.refs x (hr x hx), fun x hx => hl.data x (hr x hx)⟩ with g | ⟨s1, f1, f2, f3⟩
      · exact .inl g
      · exact .inr ⟨s1, f1, f2, fun x hx => (List.mem_filter.1 (f3 x hx)).1⟩

theorem flush_spec (E : Env D) (hE : ∀ l, E.pick l ∉ l) {dflt : D} {s : FSt D} {a : FAbs D} (h : FInv dflt s a none) :
    (∃ hit s1, flush E s = .throws hit s1 ∧ FInv dflt s1 (a.lose hit) none) ∨
      ∃ s1, flush E s = .ok () s1 ∧ FInv dflt s1 a none ∧ Fewer s s1 := by
  unfold flush
  rcases flushLoop_spec E hE (a := a) (dflt := dflt) s.st.evict.length (s := s) (l := []) (by simpa using h) ⟨by simp, by simp, by simp, by simp, by simp, by simp⟩ with ⟨hit, s1, g1, g2⟩ | ⟨l, s1, g1, g2, g3, g4, _⟩
  · exact .inl ⟨hit, s1, by rw [g1]; rfl, g2⟩
  · rw [g1]
    simp only [R.bind]
    have hr : ∀ x, x ∈ l.reverse → x ∈ l := fun x hx => List.mem_reverse.1 hx
    rcases flushWait_spec E (dflt := dflt) (a := a) l.reverse (s := s1) (by rw [lose_congr a (l' := l.map (·.id)) (fun i => by simp)]; exact g2)
      ⟨by rw [List.map_reverse]; exact (List.reverse_perm _).nodup_iff.2 g3.nd, fun x hx => g3.lost x (hr x hx), fun x hx => g3.ext x (hr x hx), fun x hx => g3.int x (hr x hx), fun x hx => g3.refs x (hr x hx), fun x hx => g3.data x (hr x hx)⟩ with g | ⟨s2, f1, f2, f3⟩
    · exact .inl g
    · exact .inr ⟨s2, f1, f2, fun x hx => by have := f3 x hx; rwa [g4] at this⟩

/-! ### All calls -/

/-- The outcomes of a call that is allowed, on an allocated block. -/
inductive Out (E : Env D) (dflt : D) (s : FSt D) (a : FAbs D) (op : Op D) : Prop
  | ok (r : Res D) (s' : FSt D) (hs : step E s op = .ok r s') (he : Expected dflt a op r) (h : FInv dflt s' (a.next op r) none) (hf : Fewer s s')
  | throws (hit : List Nat) (s' : FSt D) (hs : step E s op = .throws hit s') (h : FInv dflt s' (a.lose hit) none) (hf : op = .flush ∨ Fewer s s')
  | full (id : Nat) (u : Bool) (ho : op = .acquire id u) (hs : step E s op = .ub) (hi : (s.st.blocks id).int = none) (h1 : s.st.free = [])
      (h2 : s.st.remaining = 0) (h3 : s.st.evict = [])
  | other (m : Mode) (l : List (Nat × Nat)) (ho : op = .retag m l) (hs : step E s op = .ub) (hp : ¬ (l.map (·.2)).Perm (s.st.evict.map (·.2)))

theorem step_lt {E : Env D} {s : FSt D} {op : Op D} (h : step E s op ≠ .ub) (id : Nat) (hid : Swap.opId op = some id) : id < s.st.n := by
  cases op <;> simp only [Swap.opId, Option.some.injEq, reduceCtorEq] at hid <;> subst hid <;> apply Classical.byContradiction <;> intro hc <;>
    simp [step, R.map, R.bind, lift, acquire, Swap.write, release, Swap.deinit, Swap.initialize_, extract, Swap.freeBlock, Nat.not_lt.1 hc] at h

theorem step_out (E : Env D) (hE : ∀ l, E.pick l ∉ l) {dflt : D} (hf : ∀ d, E.fill d = dflt) {s : FSt D} {a : FAbs D} (h : FInv dflt s a none) (op : Op D)
    (ha : Swap.Allowed a.toAbs op) (hid : ∀ id, Swap.opId op = some id → id < s.st.n) : Out E dflt s a op := by
  cases op with
  | acquire id u =>
    rcases acquire_spec E hE hf h id u (hid id rfl) with ⟨g, g1⟩ | ⟨hit, s1, g, g1, g2⟩ | ⟨p, s1, g, g1, g2, g3⟩
    · exact .full id u rfl (by simp [step, R.map, R.bind, g]) g1.1 g1.2.1 g1.2.2.1 g1.2.2.2
    · exact .throws hit s1 (by simp [step, R.map, R.bind, g]) g1 (.inr g2)
    · exact .ok _ s1 (by simp [step, R.map, R.bind, g]) g2 g1 g3
  | write id d =>
    obtain ⟨t, g, g1⟩ := write_spec h id d (hid id rfl) ha
    exact .ok _ _ (by simp only [step, lift, g, R.map, R.bind]) rfl g1 (Fewer.refl s)
  | release id dirty pr =>
    obtain ⟨s1, g, g1, g2⟩ := release_spec E h id dirty pr (hid id rfl) ha
    exact .ok _ s1 (by simp only [step, g, R.map, R.bind]) rfl g1 (fun x hx => by rwa [g2] at hx)
  | deinit id =>
    obtain ⟨t, g, g1, _⟩ := deinit_spec h id (hid id rfl) ha
    exact .ok _ _ (by simp only [step, lift, g, R.map, R.bind]) rfl g1 (Fewer.refl s)
  | init id e =>
    obtain ⟨t, g, g1⟩ := init_spec h id e (hid id rfl) ha
    exact .ok _ _ (by simp only [step, lift, g, R.map, R.bind]) rfl g1 (Fewer.refl s)
  | extract id =>
    rcases extract_spec E hE h id (hid id rfl) ha with ⟨hit, s1, g, g1, g2⟩ | ⟨e, s1, g, g1, g2, g3⟩
    · exact .throws hit s1 (by simp [step, R.map, R.bind, g]) g1 (.inr g2)
    · exact .ok _ s1 (by simp [step, R.map, R.bind, g]) g2 g1 g3
  | flush =>
    rcases flush_spec E hE h with ⟨hit, s1, g, g1⟩ | ⟨s1, g, g1, g2⟩
    · exact .throws hit s1 (by simp [step, R.map, R.bind, g]) g1 (.inl rfl)
    · exact .ok _ s1 (by simp [step, R.map, R.bind, g]) rfl g1 g2
  | alloc => exact .ok _ _ rfl ⟨_, rfl⟩ (alloc_spec h) (Fewer.refl s)
  | free id =>
    obtain ⟨t, g, g1, _⟩ := deinit_spec h id (hid id rfl) ha
    refine .ok .unit { s with st := { t with freeIds := id :: t.freeIds } } (by simp [step, lift, Swap.freeBlock, g, R.map, R.bind]) rfl ?_ (Fewer.refl s)
    exact ⟨g1.core.congr rfl rfl rfl rfl rfl rfl rfl, g1.le, ⟨g1.ev.nd, g1.ev.mem, g1.ev.valid⟩, fun i => okf_frame (g1.ok i) rfl (fun _ _ => rfl) (fun _ _ _ _ => rfl) rfl rfl rfl rfl rfl, g1.held, g1.pend⟩
  | client d =>
    obtain ⟨g1, g2, g3⟩ := client_spec E hE h d
    exact .ok _ _ rfl g2 g1 g3
  | retag m l =>
    cases hp : (l.map (·.2)).isPerm (s.st.evict.map (·.2)) with
    | false => exact .other m l rfl (by simp [step, hp]) (fun hc => by rw [List.isPerm_iff.2 hc] at hp; cases hp)
    | true =>
      have hp' := List.isPerm_iff.1 hp
      exact .ok .unit _ (by simp only [step, hp, if_true]) rfl (finv_evict h m l (hp'.nodup_iff.2 h.ev.nd) (fun i hi => h.ev.mem i (hp'.mem_iff.1 hi))) (Fewer.refl s)

theorem init_finv (dflt : D) (memory size : Nat) (mem disk : Nat → D) : FInv dflt { st := Swap.init memory size mem disk } {} none := by
  have h := init_inv dflt memory size mem disk
  have ht := h.core.total
  refine ⟨⟨rfl, h.core.freeNd, h.core.freeLt, h.core.att, h.core.inj, h.core.handOk, h.core.cover, h.core.dirtyInt, h.core.refsInt, h.core.extOwn, h.core.extLive⟩, ?_,
    ⟨h.ev.nd, fun i hi => (h.ev.mem i).1 hi, h.ev.valid⟩, fun i => ⟨(h.ok i).refs, fun p hr hp => ((h.ok i).used p hr hp).1, by simp, fun _ => h.ok i⟩, fun e => ⟨(h.held e).1, fun _ => (h.held e).2⟩, by simp⟩
  exact Nat.le_of_eq ht

theorem run_finv (E : Env D) (hE : ∀ l, E.pick l ∉ l) {dflt : D} (hf : ∀ d, E.fill d = dflt) {s : FSt D} {a : FAbs D} (h : Run E s a) : FInv dflt s a none := by
  induction h with
  | start memory size mem disk => exact init_finv dflt memory size mem disk
  | step op _ ha hs ih =>
    rcases step_out E hE hf ih op ha (step_lt (by rw [hs]; simp)) with ⟨r, s1, g, _, g1, _⟩ | ⟨hit, s1, g, g1, _⟩ | ⟨id, u, _, g⟩ | ⟨m, l, _, g⟩ <;> rw [hs] at g <;> cases g
    exact g1
  | throws op _ ha hs ih =>
    rcases step_out E hE hf ih op ha (step_lt (by rw [hs]; simp)) with ⟨r, s1, g, _, g1, _⟩ | ⟨hit, s1, g, g1, _⟩ | ⟨id, u, _, g⟩ | ⟨m, l, _, g⟩ <;> rw [hs] at g <;> cases g
    exact g1
  | late i _ hs ih => exact late_inv E ih hs

end Foxxll.SwapFail
