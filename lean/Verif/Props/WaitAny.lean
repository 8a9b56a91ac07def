/-
Properties C26, C58 and C59: `wait_any`.
-/
import Verif.Proofs.WaitAny
import Verif.Proofs.WaitAnyAux
set_option linter.unusedSimpArgs false
set_option linter.unusedVariables false

namespace Foxxll.WaitAny

/-- No spurious wake-up of the condition variable. -/
def NoSpurious : Op → Prop := fun op => ∀ t, op ≠ .spurious t
/-- No I/O error. -/
def NoFail : Op → Prop := fun op => ∀ r, op ≠ .fail r

/-! ## C26 -/

/-- **C26** (no lost wake-up).  Whenever a call that has registered at a request (it got there in
the registration loop, or has finished that loop) finds that request notified, its switch is on; in
particular a sleeping call can go on. -/
theorem C26_no_lost {s : St} {t r : Nat} (h : Reach Any s) (hn : (s.req r).notified = true) :
    (∀ i, s.pc t = .add i → r ∈ (s.args t).take i → s.on t = true) ∧
    (s.pc t = .test → r ∈ s.args t → s.on t = true) ∧
    (s.pc t = .asleep → r ∈ s.args t → s.on t = true) := by
  have hi := reach_inv h
  refine ⟨?_, ?_, ?_⟩
  · intro i hpc hr
    exact hi.won r t ((hi.c t).all r (by rw [hpc]; exact hr)) hn
  · intro hpc hr
    exact hi.won r t ((hi.c t).all r (by rw [hpc]; exact hr)) hn
  · intro hpc hr
    exact hi.won r t ((hi.c t).all r (by rw [hpc]; exact hr)) hn

/-- Two requests, one call: it registers, sleeps, the second request completes. -/
def exOps : List Op := [.call 0, .call 0, .call 0, .call 0, .call 0, .setDone 1, .notify 1]
def exArgs : Nat → List Nat := fun t => if t = 0 then [0, 1] else []

example : ∃ s, Reach Any s ∧ s.pc 0 = .asleep ∧ 1 ∈ s.args 0 ∧ (s.req 1).notified = true :=
  ⟨_, reach_run exOps _ (.start exArgs) (fun _ _ => trivial) (by decide), by decide, by decide, by decide⟩

/-- The scheduler does not ignore call `t` for ever while it can go on. -/
def Exec.Fair (e : Exec) (t : Nat) : Prop :=
  ∀ n, (∃ s', step (e.st n) (.call t) = .ok s') → ∃ m, n ≤ m ∧ e.op m = .call t

/-- **C26** (the call returns).  In every run, with spurious wake-ups and I/O errors, in which the
scheduler is fair to the call: if one of its requests has been notified, the call eventually
returns (or throws, if a request failed). -/
theorem C26_returns (e : Exec) {t r : Nat} (hf : e.Fair t) :
    ∀ {n : Nat}, alive ((e.st n).pc t) = true → r ∈ (e.st n).args t → ((e.st n).req r).notified = true →
    ∃ m, n ≤ m ∧ ((∃ res, (e.st m).pc t = .ret res) ∨ (e.st m).pc t = .thrown) := by
  have main : ∀ k n, rank ((e.st n).args t).length ((e.st n).pc t) ≤ k → alive ((e.st n).pc t) = true →
      r ∈ (e.st n).args t → ((e.st n).req r).notified = true →
      ∃ m, n ≤ m ∧ ((∃ res, (e.st m).pc t = .ret res) ∨ (e.st m).pc t = .thrown) := by
    intro k
    induction k with
    | zero =>
      intro n hr ha
      exfalso
      revert ha hr
      cases (e.st n).pc t <;> simp [alive, rank]
    | succ k ih =>
      intro n hrk ha hr hn
      have hi := reach_inv (e.reach n)
      obtain ⟨s', h1, _⟩ := call_progress hi ha (by
        intro hpc
        exact hi.won r t ((hi.c t).all r (by rw [hpc]; exact hr)) hn)
      obtain ⟨m, hm, hop⟩ := hf n ⟨s', h1⟩
      -- walk to the first step at which the position changes
      have walk : ∀ d n, n + d = m → rank ((e.st n).args t).length ((e.st n).pc t) ≤ k + 1 → alive ((e.st n).pc t) = true →
          r ∈ (e.st n).args t → ((e.st n).req r).notified = true →
          ∃ m, n ≤ m ∧ ((∃ res, (e.st m).pc t = .ret res) ∨ (e.st m).pc t = .thrown) := by
        intro d
        induction d with
        | zero =>
          intro n hnm hrk ha hr hn
          have : n = m := hnm
          subst this
          have hi := reach_inv (e.reach n)
          obtain ⟨s', h1, h2, h3, h4, h5⟩ := call_progress hi ha (by
            intro hpc
            exact hi.won r t ((hi.c t).all r (by rw [hpc]; exact hr)) hn)
          have hs := e.steps n
          rw [hop] at hs
          have hs : callStep (e.st n) t = .ok (e.st (n + 1)) := hs
          rw [h1] at hs
          injection hs with hs
          subst hs
          by_cases ha' : alive ((e.st (n + 1)).pc t) = true
          · obtain ⟨m, hm, hx⟩ := ih (n + 1) (by rw [h3]; omega) ha' (by rw [h3]; exact hr) (by rw [h4]; exact hn)
            exact ⟨m, by omega, hx⟩
          · refine ⟨n + 1, by omega, ?_⟩
            revert ha' h5
            cases (e.st (n + 1)).pc t <;> simp [alive]
        | succ d ihd =>
          intro n hnm hrk ha hr hn
          have hi := reach_inv (e.reach n)
          by_cases hcall : e.op n = .call t
          · obtain ⟨s', h1, h2, h3, h4, h5⟩ := call_progress hi ha (by
              intro hpc
              exact hi.won r t ((hi.c t).all r (by rw [hpc]; exact hr)) hn)
            have hs := e.steps n
            rw [hcall] at hs
            have hs : callStep (e.st n) t = .ok (e.st (n + 1)) := hs
            rw [h1] at hs
            injection hs with hs
            subst hs
            by_cases ha' : alive ((e.st (n + 1)).pc t) = true
            · obtain ⟨m, hm, hx⟩ := ih (n + 1) (by rw [h3]; omega) ha' (by rw [h3]; exact hr) (by rw [h4]; exact hn)
              exact ⟨m, by omega, hx⟩
            · refine ⟨n + 1, by omega, ?_⟩
              revert ha' h5
              cases (e.st (n + 1)).pc t <;> simp [alive]
          · obtain ⟨h1, h2, h3⟩ := step_other (e.steps n) hcall
            rcases h3 with h3 | ⟨h3, h4⟩
            · obtain ⟨m, hm, hx⟩ := ihd (n + 1) (by omega) (by rw [h1, h3]; exact hrk) (by rw [h3]; exact ha) (by rw [h1]; exact hr) (h2 r hn)
              exact ⟨m, by omega, hx⟩
            · obtain ⟨m, hm, hx⟩ := ih (n + 1) (by
                rw [h1, h4]
                rw [h3] at hrk
                simp only [rank] at hrk ⊢
                omega) (by rw [h4]; rfl) (by rw [h1]; exact hr) (h2 r hn)
              exact ⟨m, by omega, hx⟩
      obtain ⟨d, hd⟩ : ∃ d, n + d = m := ⟨m - n, by omega⟩
      exact walk d n hd hrk ha hr hn
  intro n ha hr hn
  exact main _ n (Nat.le_refl _) ha hr hn

/-- The same without appeal to an infinite run: the call's own steps are enough, no other thread
has to do anything. -/
theorem C26_own_steps {s : St} {t r : Nat} (h : Reach Any s) (ha : alive (s.pc t) = true) (hr : r ∈ s.args t)
    (hn : (s.req r).notified = true) : ∃ u, Runs t s u ∧ ((∃ res, u.pc t = .ret res) ∨ u.pc t = .thrown) :=
  returns_aux _ s (reach_inv h) ha hr hn (Nat.le_refl _)

/-- A run as in `C26_returns`: the call above, then other requests complete, one after the other. -/
def exOp (n : Nat) : Op := if n < 7 then exOps.getD n (.call 0) else if n < 13 then .call 0 else .setDone n

def exSt : Nat → St
  | 0 => init exArgs
  | n + 1 => match step (exSt n) (exOp n) with
    | .ok s => s
    | _ => exSt n

theorem exOp_setDone {n r : Nat} (h : exOp n = .setDone r) : r < 2 ∨ r = n := by
  unfold exOp at h
  split at h
  · rename_i hn
    have : n = 0 ∨ n = 1 ∨ n = 2 ∨ n = 3 ∨ n = 4 ∨ n = 5 ∨ n = 6 := by omega
    rcases this with rfl | rfl | rfl | rfl | rfl | rfl | rfl <;> simp [exOps] at h <;> omega
  · split at h
    · cases h
    · injection h with h; exact .inr h.symm

theorem exSt_fresh : ∀ n r, 2 ≤ r → n ≤ r → ((exSt n).req r).done = false
  | 0, r, _, _ => rfl
  | n + 1, r, h2, hn => by
    have ih := exSt_fresh n r h2 (by omega)
    simp only [exSt]
    split
    · rename_i s hs
      rw [step_done hs, ih]
      intro he
      have := exOp_setDone he
      omega
    · exact ih

theorem exSt_steps (n : Nat) : step (exSt n) (exOp n) = .ok (exSt (n + 1)) := by
  have key : isOk (step (exSt n) (exOp n)) = true := by
    by_cases hn : n < 13
    · have : n = 0 ∨ n = 1 ∨ n = 2 ∨ n = 3 ∨ n = 4 ∨ n = 5 ∨ n = 6 ∨ n = 7 ∨ n = 8 ∨ n = 9 ∨ n = 10 ∨ n = 11 ∨ n = 12 := by omega
      rcases this with rfl | rfl | rfl | rfl | rfl | rfl | rfl | rfl | rfl | rfl | rfl | rfl | rfl <;> decide
    · have h1 : exOp n = .setDone n := by unfold exOp; rw [if_neg (by omega), if_neg hn]
      rw [h1]
      simp [step, exSt_fresh n n (by omega) (by omega), isOk]
  simp only [exSt]
  revert key
  cases step (exSt n) (exOp n) <;> simp [isOk]

def exExec : Exec := { st := exSt, op := exOp, start := .start exArgs, steps := exSt_steps }

theorem exSt_ret : ∀ k, (exSt (13 + k)).pc 0 = .ret (some 1)
  | 0 => by decide
  | k + 1 => by
    have h1 : exOp (13 + k) = .setDone (13 + k) := by unfold exOp; rw [if_neg (by omega), if_neg (by omega)]
    have hs := exSt_steps (13 + k)
    rw [h1] at hs
    rcases (step_other (t := 0) hs (by simp)).2.2 with h | ⟨h, _⟩
    · rw [← exSt_ret k]; exact h
    · rw [exSt_ret k] at h; cases h

example : exExec.Fair 0 ∧ alive ((exExec.st 7).pc 0) = true ∧ 1 ∈ (exExec.st 7).args 0 ∧ ((exExec.st 7).req 1).notified = true := by
  refine ⟨?_, by decide, by decide, by decide⟩
  rintro n ⟨s', hs⟩
  by_cases hn : n ≤ 12
  · exact ⟨12, hn, by decide⟩
  · exfalso
    obtain ⟨k, rfl⟩ : ∃ k, n = 13 + k := ⟨n - 13, by omega⟩
    have h1 : callStep (exSt (13 + k)) 0 = .ok s' := hs
    simp [callStep, exSt_ret k] at h1

/-- The call in the example returns request number 1. -/
example : (endSt (init exArgs) (exOps ++ [.call 0, .call 0, .call 0, .call 0, .call 0, .call 0])).pc 0 = .ret (some 1) := by decide

/-! ## C58: no registration is left behind -/

/-- **C58** is false: if a request fails, `add_waiter` throws and the call is left with its switch
still registered at the requests before; the completion of one of those uses the destroyed
switch. -/
theorem C58_false : ∃ (s : St) (r : Nat), Reach NoSpurious s ∧ step s (.notify r) = .ub := by
  refine ⟨endSt (init exArgs) [.call 0, .call 0, .fail 1, .call 0, .setDone 0], 0, ?_, ?_⟩
  · refine reach_run _ _ (.start exArgs) ?_ (by decide)
    intro op hop t
    simp at hop
    rcases hop with rfl | rfl | rfl | rfl <;> simp
  · rfl

/-- **C58**, partial: without I/O errors no completion touches a destroyed switch. -/
theorem C58_partial {s : St} (h : Reach NoFail s) (op : Op) : step s op ≠ .ub := by
  intro hub
  have hi := reach_inv h
  have ⟨_, ht⟩ := reach_noerr (P := NoFail) (fun r hp => hp r rfl) h
  cases op with
  | notify r =>
    simp only [step] at hub
    split at hub
    · split at hub
      · cases hub
      · rename_i hall
        apply hall
        rw [List.all_eq_true]
        intro t hm
        have hw := (hi.c t).reg r hm
        have := ht t
        revert hw this
        cases s.pc t <;> simp [Where, alive]
    · cases hub
  | call t =>
    simp only [step, callStep] at hub
    repeat' split at hub
    all_goals cases hub
  | spurious t => simp only [step] at hub; split at hub <;> cases hub
  | fail r => simp only [step] at hub; split at hub <;> cases hub
  | setDone r => simp only [step] at hub; split at hub <;> cases hub

/-- **C58**, partial: with I/O errors the only dangling registrations are those of calls left by an
exception; a call that returned is registered nowhere. -/
theorem C58_only_thrown {s : St} (h : Reach Any s) :
    (∀ t res, s.pc t = .ret res → ∀ r, t ∉ (s.req r).waiters) ∧
    (∀ r, step s (.notify r) = .ub → ∃ t, t ∈ (s.req r).waiters ∧ s.pc t = .thrown) := by
  have hi := reach_inv h
  constructor
  · intro t res hpc r hm
    have := (hi.c t).reg r hm
    rw [hpc] at this
    exact this
  · intro r hub
    simp only [step] at hub
    split at hub
    · split at hub
      · cases hub
      · rename_i hall
        have : ∃ t ∈ (s.req r).waiters, alive (s.pc t) ≠ true := by
          false_or_by_contra
          rename_i hno
          apply hall
          rw [List.all_eq_true]
          intro t ht
          false_or_by_contra
          exact hno ⟨t, ht, by assumption⟩
        obtain ⟨t, ht, hna⟩ := this
        refine ⟨t, ht, ?_⟩
        have hw := (hi.c t).reg r ht
        revert hw hna
        cases s.pc t <;> simp [Where, alive]
    · cases hub

example : ∃ s, Reach NoFail s ∧ s.pc 0 = .asleep ∧ (s.req 1).waiters = [0] ∧ (s.req 0).waiters = [0] := by
  refine ⟨_, reach_run [.call 0, .call 0, .call 0, .call 0, .call 0] _ (.start exArgs) ?_ (by decide), by decide, by decide, by decide⟩
  intro op hop r
  simp at hop
  subst hop
  simp

/-! ## C59: the result is a finished request -/

/-- **C59** is false: after a spurious wake-up the call returns `reqs_end` although it was given
requests and none of them is finished. -/
theorem C59_false : ∃ s : St, Reach NoFail s ∧ s.pc 0 = .ret none ∧ s.args 0 = [0, 1] ∧ (∀ r, (s.req r).done = false) := by
  refine ⟨endSt (init exArgs) [.call 0, .call 0, .call 0, .call 0, .call 0, .spurious 0, .call 0, .call 0, .call 0, .call 0, .call 0], ?_, by decide, by decide, ?_⟩
  · refine reach_run _ _ (.start exArgs) ?_ (by decide)
    intro op hop r
    simp at hop
    rcases hop with rfl | rfl | rfl <;> simp
  · intro r
    simp only [endSt, runOps, step, callStep, init, exArgs, setPc, insertW, deleteW, upd, if_true, if_false]
    simp [endSt, runOps, step, callStep, init, exArgs, setPc, insertW, deleteW, upd]
    split <;> simp_all

/-- **C59**, partial: without spurious wake-ups the call returns the position of a finished request. -/
theorem C59_partial {s : St} {t : Nat} {res : Option Nat} (h : Reach NoSpurious s) (hpc : s.pc t = .ret res) :
    ∃ i r, res = some i ∧ (s.args t)[i]? = some r ∧ (s.req r).done = true := by
  have hi := reach_inv h
  have hf := reach_found (P := NoSpurious) (fun t hp => hp t rfl) h t
  rw [hpc] at hf
  cases res with
  | none => exact hf.elim
  | some i =>
    obtain ⟨r, h1, h2⟩ := (hi.c t).res i (by rw [hpc]; rfl)
    exact ⟨i, r, rfl, h1, h2⟩

/-- **C59**, partial: with spurious wake-ups, a result other than `reqs_end` is a finished request. -/
theorem C59_result_partial {s : St} {t i : Nat} (h : Reach Any s) (hpc : s.pc t = .ret (some i)) :
    ∃ r, (s.args t)[i]? = some r ∧ (s.req r).done = true :=
  ((reach_inv h).c t).res i (by rw [hpc]; rfl)

example : ∃ s, Reach NoSpurious s ∧ s.pc 0 = .ret (some 1) := by
  refine ⟨_, reach_run (exOps ++ [.call 0, .call 0, .call 0, .call 0, .call 0, .call 0]) _ (.start exArgs) ?_ (by decide), by decide⟩
  intro op hop r
  simp [exOps] at hop
  rcases hop with rfl | rfl | rfl | rfl <;> simp

/-- A call with an empty range never returns, unless woken spuriously. -/
theorem wait_any_empty {s : St} {t : Nat} (h : Reach NoSpurious s) (he : s.args t = []) : ∀ res, s.pc t ≠ .ret res := by
  intro res hpc
  obtain ⟨i, r, _, h2, _⟩ := C59_partial h hpc
  rw [he] at h2
  simp at h2

end Foxxll.WaitAny
