import Verif.Proofs.RequestOps
import Verif.Proofs.RequestOpsAux
/-
C88-C90: operations on many requests.
-/
set_option linter.unusedSimpArgs false
namespace Foxxll.ReqOps

/-! ### C88: wait_all -/

/-- The property fails: after an I/O error the exception leaves `wait_all` while later requests are still
in their queues. -/
theorem C88_false : ∃ (os : List Op) (s : St), run (fresh [0, 1] (.wait 0)) os = some s ∧ s.pc = .thrown ∧ (s.req 1).queued = true :=
  ⟨[.take 0, .serve 0 true, .setDone 0, .setReady 0, .call, .call], _, rfl, rfl, rfl⟩

/-- What holds: if `wait_all` returns, all requests are finished and have no errors. -/
theorem C88_partial {s s' : St} {os : List Op} (hb : Begin s (.wait 0)) (hr : run s os = some s') {n : Nat} (hp : s'.pc = .ret n) :
    n = s.args.length ∧ ∀ r ∈ s.args, (s'.req r).st = .ready2die ∧ (s'.req r).err = false := by
  obtain ⟨I, ha⟩ := winv_run (s := s) ⟨hb.2, by rw [hb.1]; exact ⟨Nat.zero_le _, fun j r h => by omega⟩⟩ hr
  have := I.2
  rw [hp] at this
  simp only at this
  rw [ha] at this
  refine ⟨this.1, ?_⟩
  intro r hm
  obtain ⟨j, hj, he⟩ := List.mem_iff_getElem.mp hm
  have := this.2 j r (by omega) (by rw [ha, List.getElem?_eq_getElem hj, he])
  exact this

/-- If it is left by an exception, then by the error of a finished request; all before it are finished
without errors. -/
theorem C88_thrown {s s' : St} {os : List Op} (hb : Begin s (.wait 0)) (hr : run s os = some s') (hp : s'.pc = .thrown) :
    ∃ (i r : Nat), s.args[i]? = some r ∧ (s'.req r).st = .ready2die ∧ (s'.req r).err = true ∧
      ∀ j q, j < i → s.args[j]? = some q → (s'.req q).st = .ready2die ∧ (s'.req q).err = false := by
  obtain ⟨I, ha⟩ := winv_run (s := s) ⟨hb.2, by rw [hb.1]; exact ⟨Nat.zero_le _, fun j r h => by omega⟩⟩ hr
  have := I.2
  rw [hp] at this
  simp only at this
  obtain ⟨i, r, h1, h2, h3, h4⟩ := this
  rw [ha] at h1
  exact ⟨i, r, h1, h2, h3, fun j q hj hq => h4 j q hj (by rw [ha]; exact hq)⟩

/-- The call only waits for a request that is not finished. -/
theorem C88_progress {s s' : St} {os : List Op} (hb : Begin s (.wait 0)) (hr : run s os = some s') (hs : step s' .call = none) :
    (∃ n, s'.pc = .ret n) ∨ s'.pc = .thrown ∨ ∃ r ∈ s.args, (s'.req r).st ≠ .ready2die := by
  obtain ⟨I, ha⟩ := winv_run (s := s) ⟨hb.2, by rw [hb.1]; exact ⟨Nat.zero_le _, fun j r h => by omega⟩⟩ hr
  have I2 := I.2
  simp only [step, callStep] at hs
  cases hpc : s'.pc with
  | ret n => exact .inl ⟨n, rfl⟩
  | thrown => exact .inr (.inl rfl)
  | wait i =>
    rw [hpc] at hs
    simp only at hs
    cases hx : s'.args[i]? with
    | none => rw [hx] at hs; cases hs
    | some r =>
      rw [hx] at hs
      simp only at hs
      split at hs
      · cases hs
      · rename_i h; exact .inr (.inr ⟨r, by rw [← ha]; exact List.mem_of_getElem? hx, h⟩)
  | check i =>
    rw [hpc] at hs I2
    simp only at hs I2
    cases hx : s'.args[i]? with
    | none => have := List.getElem?_eq_none_iff.mp hx; omega
    | some r => rw [hx] at hs; cases hs
  | cancel i n => rw [hpc] at I2; exact I2.elim
  | poll i => rw [hpc] at I2; exact I2.elim
  | pollErr i t => rw [hpc] at I2; exact I2.elim

/-- Two requests completed in the other order. -/
example : ∃ s, run (fresh [0, 1] (.wait 0)) [.take 1, .take 0, .serve 1 false, .setDone 1, .setReady 1, .serve 0 false, .setDone 0, .setReady 0,
    .call, .call, .call, .call, .call] = some s ∧ s.pc = .ret 2 := ⟨_, rfl, rfl⟩

/-! ### C89: poll_any -/

/-- The property fails: a request is finished, but an error of another one that is still being served
makes `poll_any` throw. -/
theorem C89_false : ∃ (os : List Op) (s : St), run (fresh [0, 1] (.poll 0)) os = some s ∧ s.pc = .thrown ∧ (s.req 1).st = .ready2die ∧ (s.req 0).st = .op :=
  ⟨[.take 1, .serve 1 false, .setDone 1, .setReady 1, .take 0, .serve 0 true, .call, .call], _, rfl, rfl, rfl, rfl⟩

/-- What holds: `poll_any` never waits; without errors it returns the index of a completed request such that all
before it were not completed when it was called, or the end if none was completed when it was called. -/
theorem C89_partial {s s' : St} {os : List Op} (hb : Begin s (.poll 0)) (hr : run s os = some s') (he : ∀ r ∈ s.args, (s'.req r).err = false) :
    s'.pc ≠ .thrown ∧ ∀ n, s'.pc = .ret n →
      n ≤ s.args.length ∧ (∀ r, s.args[n]? = some r → (s'.req r).completed) ∧ ∀ j r, j < n → s.args[j]? = some r → ¬ (s.req r).completed := by
  have I := pinv_run (s0 := s) (s := s) ⟨fun r => Le.refl (hb.2 r), rfl, by rw [hb.1]; exact ⟨Nat.zero_le _, fun j r h => by omega⟩⟩ hr
  obtain ⟨h1, h2, h3⟩ := I
  refine ⟨?_, ?_⟩
  · intro hp
    rw [hp] at h3
    obtain ⟨r, hr1, hr2⟩ := h3
    rw [h2] at hr1
    rw [he r hr1] at hr2; cases hr2
  · intro n hp
    rw [hp] at h3
    simp only at h3
    rw [h2] at h3
    refine ⟨h3.2.1, h3.2.2, ?_⟩
    intro j r hj hr' hc
    exact hc (h3.1 j r hj hr')

/-- `poll_any` never waits. -/
theorem C89_progress {s s' : St} {os : List Op} (hb : Begin s (.poll 0)) (hr : run s os = some s') (hs : step s' .call = none) :
    (∃ n, s'.pc = .ret n) ∨ s'.pc = .thrown := by
  have I := pinv_run (s0 := s) (s := s) ⟨fun r => Le.refl (hb.2 r), rfl, by rw [hb.1]; exact ⟨Nat.zero_le _, fun j r h => by omega⟩⟩ hr
  have I2 := I.2.2
  simp only [step, callStep] at hs
  cases hpc : s'.pc with
  | ret n => exact .inl ⟨n, rfl⟩
  | thrown => exact .inr rfl
  | poll i =>
    rw [hpc] at hs
    simp only at hs
    cases hx : s'.args[i]? with
    | none => rw [hx] at hs; cases hs
    | some r => rw [hx] at hs; cases hs
  | pollErr i t =>
    rw [hpc] at hs I2
    simp only at hs I2
    cases hx : s'.args[i]? with
    | none => have := List.getElem?_eq_none_iff.mp hx; omega
    | some r => rw [hx] at hs; cases hs
  | cancel i n => rw [hpc] at I2; exact I2.elim
  | wait i => rw [hpc] at I2; exact I2.elim
  | check i => rw [hpc] at I2; exact I2.elim

example : ∃ s, run (fresh [0, 1, 2] (.poll 0)) [.take 1, .serve 1 false, .call, .setDone 1, .call, .call, .call] = some s ∧ s.pc = .ret 1 := ⟨_, rfl, rfl⟩
example : ∃ s, run (fresh [0, 1] (.poll 0)) [.call, .call, .call, .call, .call] = some s ∧ s.pc = .ret 2 := ⟨_, rfl, rfl⟩

/-! ### C90: cancel_all -/

/-- `cancel_all` of different requests returns the number of those it canceled: each was in its queue when
the call began, is never served, and no request of the call is in a queue afterwards; others are not canceled. -/
theorem C90_cancel {s s' : St} {os : List Op} (hb : Begin s (.cancel 0 0)) (hn : s.args.Nodup) (hr : run s os = some s') {n : Nat} (hp : s'.pc = .ret n) :
    n = (s.args.filter fun r => (s'.req r).canceled && !(s.req r).canceled).length ∧
    (∀ r ∈ s.args, (s'.req r).queued = false) ∧
    (∀ r, (s'.req r).canceled = true → (s.req r).canceled = false →
      r ∈ s.args ∧ (s.req r).queued = true ∧ (s'.req r).served = false ∧ (s'.req r).st = .ready2die) := by
  have I := cinv_run hn (s := s) ⟨fun r => Le.refl (hb.2 r), rfl, by simp [newly], by rw [hb.1]; simp [newly]⟩ hr
  obtain ⟨h1, h2, h3, h4⟩ := I
  rw [hp] at h4
  simp only at h4
  rw [h2] at h4
  refine ⟨h4.2.2, h4.2.1, ?_⟩
  intro r hc hc'
  have hnw : newly s s' r = true := by simp [newly, hc, hc']
  obtain ⟨_, v2, _, _⟩ := (h1 r).valid
  exact ⟨h4.1 r hnw, h3 r hnw, (v2 hc).2.1, (v2 hc).1⟩

/-- A request that no worker took is canceled. -/
theorem C90_all {s s' : St} {os : List Op} (hb : Begin s (.cancel 0 0)) (hn : s.args.Nodup) (hr : run s os = some s') {n : Nat} (hp : s'.pc = .ret n)
    {r : Nat} (hm : r ∈ s.args) (hq : (s.req r).queued = true) (ht : ∀ o ∈ os, o ≠ .take r) : (s'.req r).canceled = true := by
  have key : ∀ (os : List Op) (s : St), (∀ o ∈ os, o ≠ .take r) → (∀ q, (s.req q).Valid) → ((s.req r).queued = true ∨ (s.req r).canceled = true) →
      ∀ s', run s os = some s' → (s'.req r).queued = true ∨ (s'.req r).canceled = true := by
    intro os
    induction os with
    | nil => intro s _ _ h s' hs; cases hs; exact h
    | cons o os ih =>
      intro s ht hv hq s' hs
      simp only [run] at hs
      cases hst : step s o with
      | none => rw [hst] at hs; cases hs
      | some t =>
        rw [hst] at hs
        have ho := ht o (by simp)
        have hvr := hv r
        by_cases hoc : o = .call
        · subst hoc
          simp only [step, callStep] at hst
          have same : t.req = s.req → (t.req r).queued = true ∨ (t.req r).canceled = true := fun e => by rw [e]; exact hq
          have hvt : t.req = s.req → ∀ q, (t.req q).Valid := fun e q => by rw [e]; exact hv q
          have fin : t.req = s.req → (s'.req r).queued = true ∨ (s'.req r).canceled = true :=
            fun e => ih t (fun o ho => ht o (by simp [ho])) (hvt e) (same e) s' hs
          by_cases hc : ∃ i n, s.pc = .cancel i n
          · obtain ⟨i, n, hc⟩ := hc
            rw [hc] at hst
            simp only at hst
            split at hst
            · cases hst; exact fin rfl
            · rename_i q hq'
              split at hst
              · rename_i hqq
                cases hst
                refine ih _ (fun o ho => ht o (by simp [ho])) ?_ ?_ s' hs
                · intro x
                  by_cases e : x = q
                  · subst e
                    simp only [upd_same]
                    obtain ⟨v1, v2, v3, v4⟩ := hv x
                    exact ⟨fun z => (nomatch z), fun _ => ⟨rfl, (v1 hqq).2.1, rfl⟩, v3, fun _ => .inr rfl⟩
                  · simp only [upd_ne _ _ e]; exact hv x
                · by_cases e : r = q
                  · subst e; simp only [upd_same]; right; trivial
                  · simp only [upd_ne _ _ e]; exact hq
              · cases hst; exact fin rfl
          · exact fin (call_pos (fun i n e => hc ⟨i, n, e⟩) hst).1
        · obtain ⟨h1, _, _, h4⟩ := env_step hv hoc hst
          refine ih t (fun o ho => ht o (by simp [ho])) (fun q => (h1 q).valid) ?_ s' hs
          rcases hq with hq | hq
          · left
            cases o with
            | call => exact absurd rfl hoc
            | take q =>
              simp only [step] at hst
              split at hst
              · cases hst
                have e : r ≠ q := fun e => ho (by rw [e])
                simp only [upd_ne _ _ e]; exact hq
              · cases hst
            | serve q e =>
              simp only [step] at hst
              split at hst
              · cases hst
                by_cases e : r = q
                · subst e; simp only [upd_same]; exact hq
                · simp only [upd_ne _ _ e]; exact hq
              · cases hst
            | setDone q =>
              simp only [step] at hst
              split at hst
              · cases hst
                by_cases e : r = q
                · subst e; simp only [upd_same]; exact hq
                · simp only [upd_ne _ _ e]; exact hq
              · cases hst
            | setReady q =>
              simp only [step] at hst
              split at hst
              · cases hst
                by_cases e : r = q
                · subst e; simp only [upd_same]; exact hq
                · simp only [upd_ne _ _ e]; exact hq
              · cases hst
          · right; rw [h4]; exact hq
  rcases key os s ht hb.2 (.inl hq) s' hr with h | h
  · have := (C90_cancel hb hn hr hp).2.1 r hm
    rw [this] at h; cases h
  · exact h

/-- Request 0 is taken before it can be canceled. -/
example : ∃ s, run (fresh [0, 1, 2] (.cancel 0 0)) [.take 0, .call, .serve 0 false, .call, .take 2, .call, .call] = some s ∧ s.pc = .ret 1 ∧
    (s.req 1).canceled = true ∧ (s.req 2).queued = false := ⟨_, rfl, rfl, rfl, rfl⟩

end Foxxll.ReqOps
