/-
Properties C24 and C25: completion and cancellation of one request.
-/
import Verif.Proofs.Requests
import Verif.Proofs.RequestsAux

namespace Foxxll.Request

/-- No thread is between `if (!file_)` and `file_->get_queue_id()` of `cancel` when `file_` is set
to null. -/
def NoOverlap : St → Op → Prop := fun s op =>
  match op with
  | .srv _ => (∃ b, s.srv = .nullFile b) → ∀ t, s.can t ≠ .deref
  | .can t => (∃ b, s.can t = .nullFile b) → ∀ u, s.can u ≠ .deref
  | _ => True

/-! ### C24 -/

/-- **C24 is false**: `cancel()` tests `file_`, then the worker completes the request and sets
`file_` to null, then `cancel()` dereferences it. -/
theorem C24_false : ∃ s, Reach Any s ∧ step s (.can 0) = .ub := by
  obtain ⟨s, h, hp⟩ := witness true
    [.callCancel 0, .can 0, .take, .srv false, .srv false, .srv false, .srv false, .srv false, .srv false, .srv false, .srv false]
    (fun s => s.can 0 == .deref && !s.file) (by decide)
  simp only [Bool.and_eq_true, beq_iff_eq, Bool.not_eq_true'] at hp
  exact ⟨s, h, by simp [step, canStep, hp.1, hp.2]⟩

/-- Once the state is READY2DIE (so once `wait()` may return): the handler has been called
exactly once and has returned, with success iff the worker served the request (not if it was
cancelled); the waiters were notified once, the file reference is released once.  Missing for
C24: the runs that end in the null dereference of `C24_false`. -/
theorem C24_wait_partial {s : St} (h : Reach Any s) (hw : waitReturns s = true) :
    (s.h = true → ∃ b, s.calls = [b] ∧ s.rets = 1 ∧ (b = true ↔ s.taken = some .server)) ∧
    (s.h = false → s.calls = [] ∧ s.rets = 0) ∧
    (s.served = true ↔ s.taken = some .server) ∧ s.taken ≠ none ∧
    s.notified = 1 ∧ s.fref = 0 ∧ s.file = false := by
  have hi := reach_inv h
  have hst : s.st = .ready2die := by simpa [waitReturns] using hw
  unfold Inv at hi
  split at hi <;> rename_i htk
  · have := hi.1.st; rw [hst] at this; simp at this
  · have d := hi.1.cases.2.2.1 hst
    refine ⟨fun hh => ⟨true, by rw [d.calls]; simp [hc, hh], by rw [d.rets]; simp [hr, hh], by simp [htk]⟩,
      fun hh => ⟨by rw [d.calls]; simp [hc, hh], by rw [d.rets]; simp [hr, hh]⟩, by simp [d.served, htk], by simp [htk],
      d.notified, d.fref, d.file⟩
  · have d := hi.1.cases.2.2.1 hst
    refine ⟨fun hh => ⟨false, by rw [d.calls]; simp [hc, hh], by rw [d.rets]; simp [hr, hh], by simp [htk]⟩,
      fun hh => ⟨by rw [d.calls]; simp [hc, hh], by rw [d.rets]; simp [hr, hh]⟩, by simp [d.served, htk], by simp [htk],
      d.notified, d.fref, d.file⟩

/-- At every moment: the handler has been called at most once, and with the right flag. -/
theorem C24_once_partial {s : St} (h : Reach Any s) :
    s.calls.length ≤ 1 ∧ ∀ b ∈ s.calls, (b = true ↔ s.taken = some .server) ∧ s.taken ≠ none := by
  have hi := reach_inv h
  unfold Inv at hi
  split at hi <;> rename_i htk
  · rw [hi.1.calls]; simp
  · rcases hi.1.cases.1 with e | e <;> rw [e] <;> simp [htk]
  · rcases hi.1.cases.1 with e | e <;> rw [e] <;> simp [htk]

/-- `poll()` returns true only when it is decided whether the request is served or cancelled, and
in the first case only after the transfer. -/
theorem C24_poll_partial {s : St} (h : Reach Any s) (hp : poll s = some true) :
    s.taken ≠ none ∧ (s.taken = some .server → s.served = true) ∧ (∀ t, s.taken = some (.canceller t) → s.served = false) := by
  have hi := reach_inv h
  have hst : s.st ≠ .op := by
    intro e
    simp [poll, e] at hp
  unfold Inv at hi
  split at hi <;> rename_i htk
  · exact absurd hi.1.st hst
  · have := hi.1.cases.2.1 hst
    exact ⟨by simp [htk], fun _ => this, by simp [htk]⟩
  · have := hi.1.cases.2.1 hst
    exact ⟨by simp [htk], by simp [htk], fun _ _ => this⟩

/-- Progress: a request taken from the queue reaches READY2DIE by the steps of its taker. -/
theorem C24_completes {s : St} (h : Reach Any s) (ht : s.taken ≠ none) :
    ∃ t, Runs s t ∧ waitReturns t = true ∧ t.taken = s.taken := by
  have hi := reach_inv h
  cases hk : s.taken with
  | none => exact absurd hk ht
  | some k =>
    cases k with
    | server =>
      obtain ⟨t, h1, h2, h3⟩ := completes_server _ s hi hk (Nat.le_refl _)
      exact ⟨t, h1, by simp [waitReturns, h2], by rw [h3, hk]⟩
    | canceller c =>
      obtain ⟨t, h1, h2, h3⟩ := completes_canceller c _ s hi hk (Nat.le_refl _)
      exact ⟨t, h1, by simp [waitReturns, h2], by rw [h3, hk]⟩

/-- The null dereference happens only in `cancel()`, between its test and its use of `file_`,
after the request was completed by another thread. -/
theorem C24_ub_only {s : St} {op : Op} (h : Reach Any s) (hu : step s op = .ub) :
    ∃ t, op = .can t ∧ s.can t = .deref ∧ s.file = false ∧ s.taken ≠ none ∧ s.taken ≠ some (.canceller t) := by
  have hi := reach_inv h
  cases op with
  | take => simp only [step] at hu; split at hu <;> simp at hu
  | callCancel t => simp only [step] at hu; split at hu <;> simp at hu
  | srv e =>
    exfalso
    unfold Inv at hi
    simp only [step, srvStep] at hu
    split at hi <;> rename_i htk
    · rw [hi.2.1] at hu; simp at hu
    · have ho := hi.1
      split at hu
      · simp at hu
      · rename_i hpc
        rw [hpc] at ho
        simp [ho.2.file] at hu
      · rename_i h1 h2
        by_cases hr : ∃ b, s.srv = .ret b
        · obtain ⟨b, hb⟩ := hr
          rw [hb] at hu
          simp [finish] at hu
        · obtain ⟨x, hx⟩ := finish_enabled ho (fun b hb => hr ⟨b, hb⟩) h2
          rw [hx] at hu
          simp at hu
    · rw [hi.2.1] at hu; simp at hu
  | can t =>
    refine ⟨t, rfl, ?_⟩
    unfold Inv at hi
    simp only [step, canStep] at hu
    split at hu
    · simp at hu
    · rename_i hpc
      split at hu
      · simp at hu
      · rename_i hf
        simp at hf
        refine ⟨hpc, hf, ?_, ?_⟩
        · intro hn
          rw [hn] at hi
          have := hi.1.file
          rw [hf] at this
          simp at this
        · intro hn
          rw [hn] at hi
          have ho := hi.1
          rw [hpc] at ho
          exact ho
    · split at hu <;> simp at hu
    · exfalso
      rename_i h1 h2 h3
      have hfr : ¬ Free (s.can t) := by
        intro hf
        rw [finish_free hf] at hu
        simp at hu
      split at hi <;> rename_i htk
      · exact hfr (hi.2.2 t)
      · exact hfr (hi.2 t)
      · rename_i t'
        have htt : t = t' := by
          false_or_by_contra
          rename_i hne
          exact hfr (hi.2.2 t hne)
        subst htt
        by_cases hr : ∃ b, s.can t = .ret b
        · obtain ⟨b, hb⟩ := hr
          rw [hb] at hu
          simp [finish] at hu
        · have hsv : s.can t ≠ .serve := by
            intro h
            have := hi.1
            rw [h] at this
            simp [Own] at this
          obtain ⟨x, hx⟩ := finish_enabled hi.1 (fun b hb => hr ⟨b, hb⟩) hsv
          rw [hx] at hu
          simp at hu

/-- Without the overlap of `NoOverlap` nothing is undefined. -/
theorem C24_no_ub_partial {s : St} {op : Op} (h : Reach NoOverlap s) : step s op ≠ .ub := by
  have any : ∀ {s}, Reach NoOverlap s → Reach Any s := by
    intro s h
    induction h with
    | start h => exact .start h
    | next op _ _ hs ih => exact .next op ih trivial hs
  have key : ∀ {s}, Reach NoOverlap s → s.file = false → ∀ t, s.can t ≠ .deref := by
    intro s h
    induction h with
    | start h => intro hf; simp [init] at hf
    | @next s s' op hr hp hs ih =>
      intro hf t
      cases op with
      | take =>
        simp only [step] at hs
        split at hs
        · injection hs with hs; subst hs; exact ih hf t
        · cases hs
      | callCancel c =>
        simp only [step] at hs
        split at hs
        · injection hs with hs; subst hs
          simp only [setCan]
          split
          · simp
          · exact ih hf t
        · cases hs
      | srv e =>
        simp only [step, srvStep] at hs
        split at hs
        · cases hs
        · split at hs
          · injection hs with hs; subst hs; exact ih hf t
          · cases hs
        · split at hs
          · rename_i s1 p1 hfn
            injection hs with hs; subst hs
            cases hsrv : s.srv <;> rw [hsrv] at hfn <;> simp only [finish] at hfn
            case nullFile b =>
              injection hfn with hfn; injection hfn with e1 e2; subst e1
              exact hp ⟨b, hsrv⟩ t
            case callBegin b =>
              split at hfn <;> (injection hfn with hfn; injection hfn with e1 e2; subst e1; exact ih hf t)
            case delRef b =>
              split at hfn
              · injection hfn with hfn; injection hfn with e1 e2; subst e1; exact ih hf t
              · injection hfn with hfn; injection hfn with e1 e2; subst e1; exact ih hf t
            all_goals first | (injection hfn with hfn; injection hfn with e1 e2; subst e1; exact ih hf t) | cases hfn
          · cases hs
          · cases hs
      | can c =>
        simp only [step, canStep] at hs
        split at hs
        · injection hs with hs; subst hs
          simp only [setCan] at hf ⊢
          split
          · simp [hf]
          · exact ih hf t
        · split at hs
          · injection hs with hs; subst hs
            simp only [setCan] at hf ⊢
            split
            · simp
            · exact ih hf t
          · cases hs
        · split at hs
          · injection hs with hs; subst hs
            simp only [setCan] at hf ⊢
            split
            · simp
            · exact ih hf t
          · injection hs with hs; subst hs
            simp only [setCan] at hf ⊢
            split
            · simp
            · exact ih hf t
        · split at hs
          · rename_i s1 p1 hfn
            injection hs with hs; subst hs
            have hp1 : p1 ≠ .deref ∧ (s1.can = s.can) ∧ (s1.file = false → (∃ b, s.can c = .nullFile b) ∨ s.file = false) := by
              clear hf ih hp
              cases hcc : s.can c <;> rw [hcc] at hfn <;> simp only [finish] at hfn
              case callBegin b =>
                split at hfn <;> (injection hfn with hfn; injection hfn with e1 e2; subst e1; subst e2; simp)
              case delRef b =>
                split at hfn
                · injection hfn with hfn; injection hfn with e1 e2; subst e1; subst e2; simp
                · simp at hfn
              all_goals first | (injection hfn with hfn; injection hfn with e1 e2; subst e1; subst e2; simp) | cases hfn
            simp only [setCan] at hf ⊢
            split
            · exact hp1.1
            · rw [hp1.2.1]
              rcases hp1.2.2 hf with hb | hb
              · exact hp hb t
              · exact ih hb t
          · cases hs
          · cases hs
  intro hu
  obtain ⟨t, _, h1, h2, _⟩ := C24_ub_only (any h) hu
  exact key h h2 t h1

/-- A served request with a failed cancellation, and a cancelled one. -/
example : ∃ s, Reach Any s ∧ waitReturns s = true ∧ s.calls = [true] ∧ s.can 3 = .ret false := by
  obtain ⟨s, h, hp⟩ := witness true
    [.callCancel 3, .can 3, .can 3, .take, .can 3, .srv false, .srv false, .srv false, .srv false, .srv false, .srv false, .srv false, .srv false]
    (fun s => waitReturns s && s.calls == [true] && s.can 3 == .ret false) (by decide)
  refine ⟨s, h, ?_⟩
  simpa [and_assoc] using hp

/-- `poll` is true before the handler has run. -/
example : ∃ s, Reach Any s ∧ poll s = some true ∧ s.calls = [] ∧ s.h = true := by
  obtain ⟨s, h, hp⟩ := witness true [.take, .srv false, .srv false]
    (fun s => poll s == some true && s.calls == [] && s.h) (by decide)
  refine ⟨s, h, ?_⟩
  simpa [and_assoc] using hp

/-- `NoOverlap` allows a cancellation. -/
example : ∃ s, Reach NoOverlap s ∧ s.taken = some (.canceller 0) := by
  refine ⟨_, .next (.can 0) (.next (.can 0) (.next (.can 0) (.next (.callCancel 0) (.start true) trivial rfl) ?_ rfl) ?_ rfl) ?_ rfl, rfl⟩ <;>
    · rintro ⟨b, hb⟩
      cases hb

/-! ### C25 -/

/-- **C25 is false**: `cancel()` returns true and the handler was called (with success = false),
although request_interface.hpp documents that it is not called. -/
theorem C25_false : ∃ s, Reach Any s ∧ s.can 0 = .ret true ∧ s.calls = [false] := by
  obtain ⟨s, h, hp⟩ := witness true
    [.callCancel 0, .can 0, .can 0, .can 0, .can 0, .can 0, .can 0, .can 0, .can 0, .can 0, .can 0]
    (fun s => s.can 0 == .ret true && s.calls == [false]) (by decide)
  refine ⟨s, h, ?_⟩
  simpa using hp

/-- What holds instead: after a successful `cancel()` the handler, if there is one, has been
called exactly once, with success = false, and never with success = true; the request was not
transferred. -/
theorem C25_partial {s : St} {t : Nat} (h : Reach Any s) (hc : s.can t = .ret true) :
    s.calls = (if s.h then [false] else []) ∧ s.served = false := by
  have hi := reach_inv h
  unfold Inv at hi
  split at hi <;> rename_i htk
  · have := hi.2.2 t; rw [hc] at this; simp [Free] at this
  · have := hi.2 t; rw [hc] at this; simp [Free] at this
  · rename_i t'
    have htt : t = t' := by
      false_or_by_contra
      rename_i hne
      have := hi.2.2 t hne
      rw [hc] at this
      simp [Free] at this
    subst htt
    have := hi.1
    rw [hc] at this
    exact ⟨this.2.calls, this.2.served⟩

end Foxxll.Request
