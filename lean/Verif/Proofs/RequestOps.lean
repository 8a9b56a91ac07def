import Verif.Spec.RequestOps
/-
Lemmas on operations on many requests.
-/
set_option linter.unusedSimpArgs false
namespace Foxxll.ReqOps

theorem upd_same (f : Nat → Req) (r : Nat) (a : Req) : upd f r a r = a := by simp [upd]
theorem upd_ne (f : Nat → Req) {r q : Nat} (a : Req) (h : q ≠ r) : upd f r a q = f q := by simp [upd, h]

/-- What never changes back. -/
structure Le (q q' : Req) : Prop where
  valid : q'.Valid
  ready : q.st = .ready2die → q'.st = .ready2die ∧ q'.err = q.err
  done : q.st ≠ .op → q'.st ≠ .op
  err : q.err = true → q'.err = true
  queued : q.queued = false → q'.queued = false
  canceled : q.canceled = true → q'.canceled = true

theorem Le.refl {q : Req} (h : q.Valid) : Le q q := ⟨h, fun h => ⟨h, rfl⟩, id, id, id, id⟩

theorem Le.trans {a b c : Req} (h : Le a b) (g : Le b c) : Le a c :=
  ⟨g.valid, fun x => ⟨(g.ready (h.ready x).1).1, by rw [(g.ready (h.ready x).1).2, (h.ready x).2]⟩, fun x => g.done (h.done x), fun x => g.err (h.err x),
    fun x => g.queued (h.queued x), fun x => g.canceled (h.canceled x)⟩

/-- All requests of the states. -/
def LeAll (s s' : St) : Prop := ∀ r, Le (s.req r) (s'.req r)

theorem upd_le {s : St} {r : Nat} {a : Req} (hv : ∀ r, (s.req r).Valid) (h : Le (s.req r) a) : ∀ q, Le (s.req q) (upd s.req r a q) := by
  intro q
  by_cases e : q = r
  · subst e; rw [upd_same]; exact h
  · rw [upd_ne _ _ e]; exact Le.refl (hv q)

/-- A step of another thread. -/
theorem env_step {s s' : St} {o : Op} (hv : ∀ r, (s.req r).Valid) (ho : o ≠ .call) (h : step s o = some s') :
    LeAll s s' ∧ s'.pc = s.pc ∧ s'.args = s.args ∧ (∀ r, (s'.req r).canceled = (s.req r).canceled) := by
  have hc : ∀ {r : Nat} {a : Req}, a.canceled = (s.req r).canceled → ∀ q, (upd s.req r a q).canceled = (s.req q).canceled := by
    intro r a e q
    by_cases e' : q = r
    · subst e'; rw [upd_same]; exact e
    · rw [upd_ne _ _ e']
  cases o with
  | call => exact absurd rfl ho
  | take r =>
    simp only [step] at h
    split at h
    · rename_i hq
      cases h
      obtain ⟨v1, v2, v3, v4⟩ := hv r
      refine ⟨upd_le hv ⟨⟨?_, ?_, v3, v4⟩, ?_, ?_, ?_, ?_, ?_⟩, rfl, rfl, hc rfl⟩
      · intro x; cases x
      · intro x; have := v2 x; rw [hq] at this; simp at this
      · intro x; exact ⟨x, rfl⟩
      · exact id
      · exact id
      · intro _; rfl
      · exact id
    · cases h
  | serve r e =>
    simp only [step] at h
    split at h
    · rename_i hq
      cases h
      obtain ⟨v1, v2, v3, v4⟩ := hv r
      have hop : (s.req r).st = .op := by
        apply Classical.byContradiction; intro hn
        rcases v4 hn with x | x
        · rw [hq.2.1] at x; cases x
        · rw [hq.2.2] at x; cases x
      refine ⟨upd_le hv ⟨⟨?_, ?_, ?_, ?_⟩, ?_, ?_, ?_, ?_, ?_⟩, rfl, rfl, hc rfl⟩
      · intro x; rw [show (s.req r).queued = true from x] at hq; simp at hq
      · intro x; rw [show (s.req r).canceled = true from x] at hq; simp at hq
      · intro _; rfl
      · intro x; exact absurd hop x
      · intro x; rw [hop] at x; cases x
      · intro x; exact absurd hop x
      · intro x; have := v3 x; rw [hq.2.1] at this; cases this
      · exact id
      · exact id
    · cases h
  | setDone r =>
    simp only [step] at h
    split at h
    · rename_i hq
      cases h
      obtain ⟨v1, v2, v3, v4⟩ := hv r
      refine ⟨upd_le hv ⟨⟨?_, ?_, v3, ?_⟩, ?_, ?_, id, id, id⟩, rfl, rfl, hc rfl⟩
      · intro x; have := (v1 x).2.1; rw [hq.1] at this; cases this
      · intro x; have := (v2 x).2.1; rw [hq.1] at this; cases this
      · intro _; exact .inl hq.1
      · intro x; rw [hq.2] at x; cases x
      · intro x; exact absurd hq.2 x
    · cases h
  | setReady r =>
    simp only [step] at h
    split at h
    · rename_i hq
      cases h
      obtain ⟨v1, v2, v3, v4⟩ := hv r
      refine ⟨upd_le hv ⟨⟨?_, ?_, v3, ?_⟩, ?_, ?_, id, id, id⟩, rfl, rfl, hc rfl⟩
      · intro x; have := (v1 x).1; rw [hq] at this; cases this
      · intro x; have := (v2 x).1; rw [hq] at this; cases this
      · intro _; exact v4 (by rw [hq]; simp)
      · intro x; rw [hq] at x; cases x
      · intro _; simp
    · cases h

/-- A step of the call that is not `cancel` changes its position only. -/
theorem call_pos {s s' : St} (hc : ∀ i n, s.pc ≠ .cancel i n) (h : callStep s = some s') : s'.req = s.req ∧ s'.args = s.args := by
  unfold callStep at h
  split at h
  · split at h
    · cases h; exact ⟨rfl, rfl⟩
    · split at h
      · cases h; exact ⟨rfl, rfl⟩
      · cases h
  · split at h
    · cases h
    · cases h; exact ⟨rfl, rfl⟩
  · rename_i i n he; exact absurd he (hc i n)
  · split at h
    · cases h; exact ⟨rfl, rfl⟩
    · cases h; exact ⟨rfl, rfl⟩
  · split at h
    · cases h
    · cases h; exact ⟨rfl, rfl⟩
  · cases h
  · cases h

/-! ### wait_all -/

/-- Requests before index `i` are good. -/
def Prefix (s : St) (i : Nat) : Prop := ∀ j r, j < i → s.args[j]? = some r → (s.req r).good

/-- Invariant of `wait_all`. -/
def WInv (s : St) : Prop :=
  (∀ r, (s.req r).Valid) ∧
  match s.pc with
  | .wait i => i ≤ s.args.length ∧ Prefix s i
  | .check i => i < s.args.length ∧ Prefix s i ∧ ∀ r, s.args[i]? = some r → (s.req r).st = .ready2die
  | .ret n => n = s.args.length ∧ Prefix s n
  | .thrown => ∃ (i r : Nat), s.args[i]? = some r ∧ (s.req r).st = .ready2die ∧ (s.req r).err = true ∧ Prefix s i
  | _ => False

theorem prefix_le {s s' : St} (h : LeAll s s') (ha : s'.args = s.args) {i : Nat} (hp : Prefix s i) : Prefix s' i := by
  intro j r hj hr
  rw [ha] at hr
  obtain ⟨h1, h2⟩ := hp j r hj hr
  exact ⟨((h r).ready h1).1, by rw [((h r).ready h1).2]; exact h2⟩

theorem winv_step {s s' : St} {o : Op} (I : WInv s) (h : step s o = some s') : WInv s' ∧ s'.args = s.args ∧ LeAll s s' := by
  obtain ⟨hv, hp⟩ := I
  by_cases ho : o = .call
  · subst ho
    have hnc : ∀ i n, s.pc ≠ .cancel i n := by intro i n e; rw [e] at hp; exact hp
    obtain ⟨h1, h2⟩ := call_pos hnc h
    refine ⟨⟨by rw [h1]; exact hv, ?_⟩, h2, fun r => by rw [h1]; exact Le.refl (hv r)⟩
    have hpre : ∀ i, Prefix s i → Prefix s' i := by intro i hi j r hj hr; rw [h1]; rw [h2] at hr; exact hi j r hj hr
    simp only [step, callStep] at h
    cases hpc : s.pc with
    | wait i =>
      rw [hpc] at h hp
      simp only at h hp
      cases hr : s.args[i]? with
      | none =>
        rw [hr] at h; cases h
        have := List.getElem?_eq_none_iff.mp hr
        exact ⟨show i = s.args.length by omega, hpre i hp.2⟩
      | some r =>
        rw [hr] at h
        simp only at h
        split at h
        · rename_i hst
          cases h
          refine ⟨(List.getElem?_eq_some_iff.mp hr).1, hpre i hp.2, ?_⟩
          intro r' hr'
          have : s.args[i]? = some r' := hr'
          rw [hr] at this; cases this; exact hst
        · cases h
    | check i =>
      rw [hpc] at h hp
      simp only at h hp
      cases hr : s.args[i]? with
      | none => rw [hr] at h; cases h
      | some r =>
        rw [hr] at h
        simp only at h
        cases h
        cases he : (s.req r).err with
        | true =>
          simp only [goTo, if_true]
          exact ⟨i, r, hr, hp.2.2 r hr, he, hpre i hp.2.1⟩
        | false =>
          simp only [goTo, Bool.false_eq_true, if_false]
          refine ⟨by have := hp.1; omega, ?_⟩
          intro j q hj hq
          by_cases e : j = i
          · subst e
            have : s.args[j]? = some q := hq
            rw [hr] at this; cases this
            exact ⟨hp.2.2 r hr, he⟩
          · exact hp.2.1 j q (by omega) hq
    | ret n => rw [hpc] at h; cases h
    | thrown => rw [hpc] at h; cases h
    | cancel i n => exact absurd hpc (hnc i n)
    | poll i => rw [hpc] at hp; exact hp.elim
    | pollErr i t => rw [hpc] at hp; exact hp.elim
  · obtain ⟨h1, h2, h3, _⟩ := env_step hv ho h
    refine ⟨⟨fun r => (h1 r).valid, ?_⟩, h3, h1⟩
    rw [h2]
    cases hpc : s.pc with
    | wait i => rw [hpc] at hp; simp only at hp ⊢; exact ⟨by rw [h3]; exact hp.1, prefix_le h1 h3 hp.2⟩
    | check i =>
      rw [hpc] at hp; simp only at hp ⊢
      exact ⟨by rw [h3]; exact hp.1, prefix_le h1 h3 hp.2.1, fun r hr => ((h1 r).ready (hp.2.2 r (by rw [← h3]; exact hr))).1⟩
    | ret n => rw [hpc] at hp; simp only at hp ⊢; exact ⟨by rw [h3]; exact hp.1, prefix_le h1 h3 hp.2⟩
    | thrown =>
      rw [hpc] at hp; simp only at hp ⊢
      obtain ⟨i, r, a1, a2, a3, a4⟩ := hp
      exact ⟨i, r, by rw [h3]; exact a1, ((h1 r).ready a2).1, (h1 r).err a3, prefix_le h1 h3 a4⟩
    | cancel i n => rw [hpc] at hp; exact hp
    | poll i => rw [hpc] at hp; exact hp
    | pollErr i t => rw [hpc] at hp; exact hp

theorem winv_run {os : List Op} : ∀ {s s' : St}, WInv s → run s os = some s' → WInv s' ∧ s'.args = s.args := by
  induction os with
  | nil => intro s s' I h; cases h; exact ⟨I, rfl⟩
  | cons o os ih =>
    intro s s' I h
    simp only [run] at h
    cases hs : step s o with
    | none => rw [hs] at h; cases h
    | some t =>
      rw [hs] at h
      obtain ⟨I', ha, _⟩ := winv_step I hs
      obtain ⟨I'', ha'⟩ := ih I' h
      exact ⟨I'', by rw [ha', ha]⟩

/-! ### poll_any -/

/-- Requests before index `i` were not completed in `s0`. -/
def Busy (s0 : St) (i : Nat) : Prop := ∀ j r, j < i → s0.args[j]? = some r → (s0.req r).st = .op

/-- Invariant of `poll_any`. -/
def PInv (s0 s : St) : Prop :=
  (∀ r, Le (s0.req r) (s.req r)) ∧ s.args = s0.args ∧
  match s.pc with
  | .poll i => i ≤ s.args.length ∧ Busy s0 i
  | .pollErr i t => i < s.args.length ∧ Busy s0 i ∧ ∀ r, s.args[i]? = some r → (t = .op → (s0.req r).st = .op) ∧ (t ≠ .op → (s.req r).st ≠ .op)
  | .ret n => Busy s0 n ∧ n ≤ s.args.length ∧ ∀ r, s.args[n]? = some r → (s.req r).st ≠ .op
  | .thrown => ∃ r, r ∈ s.args ∧ (s.req r).err = true
  | _ => False

theorem pinv_step {s0 s s' : St} {o : Op} (I : PInv s0 s) (h : step s o = some s') : PInv s0 s' := by
  obtain ⟨hl, ha, hp⟩ := I
  have hv : ∀ r, (s.req r).Valid := fun r => (hl r).valid
  by_cases ho : o = .call
  · subst ho
    have hnc : ∀ i n, s.pc ≠ .cancel i n := by intro i n e; rw [e] at hp; exact hp
    obtain ⟨h1, h2⟩ := call_pos hnc h
    refine ⟨by rw [h1]; exact hl, by rw [h2, ha], ?_⟩
    simp only [step, callStep] at h
    cases hpc : s.pc with
    | poll i =>
      rw [hpc] at h hp
      simp only at h hp
      cases hr : s.args[i]? with
      | none =>
        rw [hr] at h; cases h
        refine ⟨hp.2, hp.1, ?_⟩
        intro r hr'
        have : s.args[i]? = some r := hr'
        rw [hr] at this; cases this
      | some r =>
        rw [hr] at h; cases h
        refine ⟨(List.getElem?_eq_some_iff.mp hr).1, hp.2, ?_⟩
        intro r' hr'
        have : s.args[i]? = some r' := hr'
        rw [hr] at this; cases this
        refine ⟨fun e => ?_, fun e => e⟩
        apply Classical.byContradiction
        intro hn
        exact (hl r).done hn e
    | pollErr i t =>
      rw [hpc] at h hp
      simp only at h hp
      cases hr : s.args[i]? with
      | none => rw [hr] at h; cases h
      | some r =>
        rw [hr] at h; cases h
        have hq := hp.2.2 r hr
        cases he : (s.req r).err with
        | true => simp only [goTo, if_true]; exact ⟨r, List.mem_of_getElem? hr, he⟩
        | false =>
          simp only [goTo, Bool.false_eq_true, if_false]
          by_cases ht : t = .op
          · rw [if_pos ht]
            refine ⟨by have := hp.1; omega, ?_⟩
            intro j q hj hjq
            by_cases e : j = i
            · subst e
              rw [← ha, hr] at hjq; cases hjq
              exact hq.1 ht
            · exact hp.2.1 j q (by omega) hjq
          · rw [if_neg ht]
            refine ⟨hp.2.1, by have := hp.1; omega, ?_⟩
            intro r' hr'
            have : s.args[i]? = some r' := hr'
            rw [hr] at this; cases this
            exact hq.2 ht
    | ret n => rw [hpc] at h; cases h
    | thrown => rw [hpc] at h; cases h
    | cancel i n => exact absurd hpc (hnc i n)
    | wait i => rw [hpc] at hp; exact hp.elim
    | check i => rw [hpc] at hp; exact hp.elim
  · obtain ⟨h1, h2, h3, _⟩ := env_step hv ho h
    refine ⟨fun r => (hl r).trans (h1 r), by rw [h3, ha], ?_⟩
    rw [h2]
    cases hpc : s.pc with
    | poll i => rw [hpc] at hp; simp only at hp ⊢; rw [h3]; exact hp
    | pollErr i t =>
      rw [hpc] at hp; simp only at hp ⊢; rw [h3]
      exact ⟨hp.1, hp.2.1, fun r hr => ⟨(hp.2.2 r hr).1, fun ht => (h1 r).done ((hp.2.2 r hr).2 ht)⟩⟩
    | ret n =>
      rw [hpc] at hp; simp only at hp ⊢; rw [h3]
      exact ⟨hp.1, hp.2.1, fun r hr => (h1 r).done (hp.2.2 r hr)⟩
    | thrown =>
      rw [hpc] at hp; simp only at hp ⊢; rw [h3]
      obtain ⟨r, a1, a2⟩ := hp
      exact ⟨r, a1, (h1 r).err a2⟩
    | cancel i n => rw [hpc] at hp; exact hp
    | wait i => rw [hpc] at hp; exact hp
    | check i => rw [hpc] at hp; exact hp

theorem pinv_run {os : List Op} {s0 : St} : ∀ {s s' : St}, PInv s0 s → run s os = some s' → PInv s0 s' := by
  induction os with
  | nil => intro s s' I h; cases h; exact I
  | cons o os ih =>
    intro s s' I h
    simp only [run] at h
    cases hs : step s o with
    | none => rw [hs] at h; cases h
    | some t => rw [hs] at h; exact ih (pinv_step I hs) h

/-! ### cancel_all -/

/-- Canceled since `s0`. -/
def newly (s0 s : St) (r : Nat) : Bool := (s.req r).canceled && !(s0.req r).canceled

/-- Invariant of `cancel_all`. -/
def CInv (s0 s : St) : Prop :=
  (∀ r, Le (s0.req r) (s.req r)) ∧ s.args = s0.args ∧
  (∀ r, newly s0 s r = true → (s0.req r).queued = true) ∧
  match s.pc with
  | .cancel i n => i ≤ s.args.length ∧ (∀ r, newly s0 s r = true → r ∈ s.args.take i) ∧ (∀ r ∈ s.args.take i, (s.req r).queued = false) ∧
      n = ((s.args.take i).filter (newly s0 s)).length
  | .ret n => (∀ r, newly s0 s r = true → r ∈ s.args) ∧ (∀ r ∈ s.args, (s.req r).queued = false) ∧ n = (s.args.filter (newly s0 s)).length
  | _ => False

theorem cinv_step {s0 s s' : St} {o : Op} (hn : s0.args.Nodup) (I : CInv s0 s) (h : step s o = some s') : CInv s0 s' := by
  obtain ⟨hl, ha, hq, hp⟩ := I
  have hv : ∀ r, (s.req r).Valid := fun r => (hl r).valid
  by_cases ho : o = .call
  · subst ho
    simp only [step, callStep] at h
    cases hpc : s.pc with
    | cancel i n =>
      rw [hpc] at h hp
      simp only at h hp
      obtain ⟨p1, p2, p3, p4⟩ := hp
      cases hr : s.args[i]? with
      | none =>
        rw [hr] at h; cases h
        have h5 : s.args.take i = s.args := List.take_of_length_le (List.getElem?_eq_none_iff.mp hr)
        rw [h5] at p2 p3 p4
        exact ⟨hl, ha, hq, p2, p3, p4⟩
      | some r =>
        rw [hr] at h
        simp only at h
        have hi : i < s.args.length := (List.getElem?_eq_some_iff.mp hr).1
        have htk : s.args.take (i + 1) = s.args.take i ++ [r] := by
          rw [List.take_add_one, hr]; rfl
        have hnd : r ∉ s.args.take i := by
          have h6 : (s.args.take (i + 1)).Nodup := List.Nodup.sublist (List.take_sublist _ _) (by rw [ha]; exact hn)
          rw [htk] at h6
          rw [List.nodup_append] at h6
          intro hm
          exact h6.2.2 r hm r (by simp) rfl
        cases hqd : (s.req r).queued with
        | true =>
          rw [hqd] at h
          simp only [if_true] at h
          cases h
          obtain ⟨v1, v2, v3, v4⟩ := hv r
          obtain ⟨w1, w2, w3⟩ := v1 hqd
          have hq0 : (s0.req r).queued = true := by
            cases hx : (s0.req r).queued with
            | true => rfl
            | false => have := (hl r).queued hx; rw [hqd] at this; cases this
          have hc0 : (s0.req r).canceled = false := by
            cases hx : (s0.req r).canceled with
            | false => rfl
            | true => have := (hl r).canceled hx; rw [w3] at this; cases this
          have hle : ∀ q, Le (s.req q) (upd s.req r { s.req r with queued := false, canceled := true, st := .ready2die } q) := by
            apply upd_le hv
            refine ⟨⟨fun x => (nomatch x), fun _ => ⟨rfl, w2, rfl⟩, v3, fun _ => .inr rfl⟩, ?_, ?_, id, fun _ => rfl, fun _ => rfl⟩
            · intro x; rw [w1] at x; cases x
            · intro _; simp
          have hnew : ∀ q, q ≠ r → newly s0 { s with req := upd s.req r { s.req r with queued := false, canceled := true, st := .ready2die }, pc := .cancel (i + 1) (n + 1) } q = newly s0 s q := by
            intro q hqr; simp only [newly]; rw [upd_ne _ _ hqr]
          have hnewr : newly s0 { s with req := upd s.req r { s.req r with queued := false, canceled := true, st := .ready2die }, pc := .cancel (i + 1) (n + 1) } r = true := by
            simp [newly, upd_same, hc0]
          refine ⟨fun q => (hl q).trans (hle q), ha, ?_, ?_⟩
          · intro q hx
            by_cases e : q = r
            · rw [e]; exact hq0
            · rw [hnew q e] at hx; exact hq q hx
          · simp only
            refine ⟨by omega, ?_, ?_, ?_⟩
            · intro q hx
              rw [htk]
              by_cases e : q = r
              · rw [e]; simp
              · rw [hnew q e] at hx; exact List.mem_append.mpr (.inl (p2 q hx))
            · intro q hx
              rw [htk] at hx
              by_cases e : q = r
              · rw [e, upd_same]
              · rw [upd_ne _ _ e]
                refine p3 q ?_
                rcases List.mem_append.mp hx with hx | hx
                · exact hx
                · exact absurd (List.mem_singleton.mp hx) e
            · rw [htk, List.filter_append, List.length_append, List.filter_cons, if_pos hnewr]
              rw [List.filter_congr (q := newly s0 s) (fun q hx => hnew q (fun e => hnd (e ▸ hx)))]
              rw [p4]; rfl
        | false =>
          rw [hqd] at h
          simp only [Bool.false_eq_true, if_false] at h
          cases h
          have hnr : newly s0 s r = false := by
            cases hx : newly s0 s r with
            | false => rfl
            | true => exact absurd (p2 r hx) hnd
          refine ⟨hl, ha, hq, ?_⟩
          simp only [goTo]
          refine ⟨by omega, ?_, ?_, ?_⟩
          · intro q hx; rw [htk]; exact List.mem_append.mpr (.inl (p2 q hx))
          · intro q hx
            rw [htk] at hx
            rcases List.mem_append.mp hx with hx | hx
            · exact p3 q hx
            · rw [List.mem_singleton.mp hx]; exact hqd
          · rw [htk, List.filter_append, List.length_append, p4]
            have : List.filter (newly s0 s) [r] = [] := by simp [hnr]
            show _ = _ + (List.filter (newly s0 s) [r]).length
            rw [this]; rfl
    | ret n => rw [hpc] at h; cases h
    | thrown => rw [hpc] at h; cases h
    | wait i => rw [hpc] at hp; exact hp.elim
    | check i => rw [hpc] at hp; exact hp.elim
    | poll i => rw [hpc] at hp; exact hp.elim
    | pollErr i t => rw [hpc] at hp; exact hp.elim
  · obtain ⟨h1, h2, h3, h4⟩ := env_step hv ho h
    have hnew : newly s0 s' = newly s0 s := by funext r; simp only [newly]; rw [h4]
    refine ⟨fun r => (hl r).trans (h1 r), by rw [h3, ha], by rw [hnew]; exact hq, ?_⟩
    rw [h2]
    cases hpc : s.pc with
    | cancel i n =>
      rw [hpc] at hp; simp only at hp ⊢; rw [h3, hnew]
      exact ⟨hp.1, hp.2.1, fun r hr => (h1 r).queued (hp.2.2.1 r hr), hp.2.2.2⟩
    | ret n =>
      rw [hpc] at hp; simp only at hp ⊢; rw [h3, hnew]
      exact ⟨hp.1, fun r hr => (h1 r).queued (hp.2.1 r hr), hp.2.2⟩
    | thrown => rw [hpc] at hp; exact hp
    | wait i => rw [hpc] at hp; exact hp
    | check i => rw [hpc] at hp; exact hp
    | poll i => rw [hpc] at hp; exact hp
    | pollErr i t => rw [hpc] at hp; exact hp

theorem cinv_run {os : List Op} {s0 : St} (hn : s0.args.Nodup) : ∀ {s s' : St}, CInv s0 s → run s os = some s' → CInv s0 s' := by
  induction os with
  | nil => intro s s' I h; cases h; exact I
  | cons o os ih =>
    intro s s' I h
    simp only [run] at h
    cases hs : step s o with
    | none => rw [hs] at h; cases h
    | some t => rw [hs] at h; exact ih (cinv_step hn I hs) h

end Foxxll.ReqOps
