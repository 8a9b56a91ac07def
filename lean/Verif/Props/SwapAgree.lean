import Verif.Proofs.SwapAgree
/-
The two models of the block scheduler agree if nothing fails.
-/
namespace Foxxll.SwapFail
open Foxxll.Swap (Op Res Abs)

variable {D : Type}

/-- C133, relation of the models.  If no request fails and there is always space and memory, every history of the scheduler with failures (`SwapFail.Run`, where `flush`
first makes all its requests and then waits for them, the last first) is one of the scheduler without (`Swap.Run`, where blocks are written one by one), and
every call ends in the same way with the same result in the same state; it does not throw, and nothing is left in flight.  Hence the properties
of blocks that are proved without failures hold for the scheduler of this model too. -/
theorem C133_agree (E : Env D) (hE : ∀ l, E.pick l ∉ l) (dflt : D) (hf : ∀ d, E.fill d = dflt) (hr : ∀ k, E.ans k = .ok) (hsp : ∀ k, E.space k = true)
    (hm : ∀ k, E.mem k = true) {s : FSt D} {a : FAbs D} (h : Run E s a) :
    Swap.Run E.toEnv s.st a.toAbs ∧ s.pend = [] ∧ ∀ op : Op D,
      (∀ r t, Swap.step E.toEnv s.st op = some (r, t) ↔ ∃ s', step E s op = .ok r s' ∧ s'.st = t) ∧
      (Swap.step E.toEnv s.st op = none ↔ step E s op = .ub) ∧ ∀ hit s', step E s op ≠ .throws hit s' := by
  have q : Calm E := ⟨hr, hsp, hm⟩
  have key : ∀ {s : FSt D} {a : FAbs D}, Run E s a → s.pend = [] → ∀ op, Agrees (step E s op) (Swap.step E.toEnv s.st op) :=
    fun h hp op => step_agrees hE q (run_finv E hE hf h) hp op
  have main : Swap.Run E.toEnv s.st a.toAbs ∧ s.pend = [] := by
    induction h with
    | start memory size mem disk => exact ⟨Swap.Run.start memory size mem disk, rfl⟩
    | @step s a s' r op h ha hs ih =>
      have := key h ih.2 op
      rw [hs] at this
      cases ho : Swap.step E.toEnv s.st op with
      | none => rw [ho] at this; exact this.elim
      | some x =>
        rw [ho] at this
        obtain ⟨h1, h2, h3⟩ := this
        obtain ⟨r', t⟩ := x
        simp only at h1 h2
        subst h1 h2
        refine ⟨?_, h3⟩
        have e : (a.next op r).toAbs = a.toAbs.next op r := by unfold FAbs.next; split <;> rfl
        rw [e]
        exact Swap.Run.step op ih.1 ha ho
    | @throws s a s' hit op h ha hs ih =>
      have := key h ih.2 op
      rw [hs] at this
      cases ho : Swap.step E.toEnv s.st op <;> rw [ho] at this <;> exact this.elim
    | @late s a s' i h hs ih =>
      simp [lateAt, ih.2] at hs
  refine ⟨main.1, main.2, fun op => ?_⟩
  have := key h main.2 op
  cases hs : step E s op with
  | ub =>
    cases ho : Swap.step E.toEnv s.st op with
    | some x => rw [hs, ho] at this; exact this.elim
    | none => exact ⟨fun r t => ⟨(fun hc => nomatch hc), (fun ⟨_, hc, _⟩ => nomatch hc)⟩, ⟨fun _ => rfl, fun _ => rfl⟩, (fun _ _ hc => nomatch hc)⟩
  | throws hit s1 => cases ho : Swap.step E.toEnv s.st op <;> rw [hs, ho] at this <;> exact this.elim
  | ok r1 s1 =>
    cases ho : Swap.step E.toEnv s.st op with
    | none => rw [hs, ho] at this; exact this.elim
    | some x =>
      rw [hs, ho] at this
      obtain ⟨h1, h2, h3⟩ := this
      obtain ⟨r2, t2⟩ := x
      simp only at h1 h2
      subst h1 h2
      refine ⟨fun r t => ⟨fun hc => ?_, fun ⟨s', hc, ht⟩ => ?_⟩, ⟨(fun hc => nomatch hc), (fun hc => nomatch hc)⟩, (fun _ _ hc => nomatch hc)⟩
      · cases hc
        exact ⟨s1, rfl, rfl⟩
      · cases hc
        rw [ht]

/-- Two dirty blocks are flushed, with requests served in the other order; a client then reads the first one. -/
example : ∃ s a s', Run (exF 100 (fun _ => true) (fun _ => true)) s a ∧ s.st.evict = [] ∧ a.data 0 = some 5 ∧ a.data 1 = some 6 ∧ s.k = 5 ∧
    step (exF 100 (fun _ => true) (fun _ => true)) s (.acquire 0 false) = .ok (.data 5) s' :=
  ⟨_, _, _, playF_run [.op .alloc, .op .alloc, .op (.acquire 0 false), .op (.write 0 5), .op (.release 0 true (fun _ => 0)), .op (.acquire 1 false), .op (.write 1 6),
      .op (.release 1 true (fun _ => 0)), .op .flush] (Run.start 2 1 (fun _ => 0) (fun _ => 0)) rfl, rfl, rfl, rfl, rfl, rfl⟩

/-- An environment as in the theorem. -/
example : ∃ E : Env Nat, (∀ l, E.pick l ∉ l) ∧ (∀ d, E.fill d = 0) ∧ (∀ k, E.ans k = .ok) ∧ (∀ k, E.space k = true) ∧ ∀ k, E.mem k = true :=
  ⟨{ exF 100 (fun _ => true) (fun _ => true) with ans := fun _ => .ok }, Swap.exE_fresh, fun _ => rfl, fun _ => rfl, fun _ => rfl, fun _ => rfl⟩

end Foxxll.SwapFail
