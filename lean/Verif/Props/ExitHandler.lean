/-
Property C114: exit handlers without `atexit`.
-/
import Verif.Proofs.ExitHandler

namespace Foxxll.Exit

/-! In full: every registered exit handler is called exactly once by `run_exit_handlers`, in the reverse order of registration, also if
handlers register further handlers or throw (as with `atexit`), and `run_exit_handlers` returns. -/

/-- **C114 is false** if a handler registers another one (like a destructor that creates a singleton): the thread waits for the mutex it
holds itself; whatever the threads do, nothing more is registered or called. -/
theorem C114_false : ∃ (reg : Nat → List Nat) (as : List Act) (s : State), run reg init as = some s ∧ s.called = [0] ∧
    ∀ bs s', run reg s bs = some s' → s'.stack 0 ≠ [] ∧ s'.called = [0] ∧ s'.handlers = [0] ∧ s'.runs = [] := by
  refine ⟨fun _ => [1], [.register 0 0, .go 0, .go 0, .go 0, .runAll 0, .go 0, .go 0, .go 0], _, rfl, rfl, ?_⟩
  intro bs s' h
  have key : ∀ (bs : List Act) (s s' : State) (fs : List Frame), s.stack 0 = .lock 1 :: fs → s.owner = some 0 →
      (∀ u, u ≠ 0 → ∀ x ∈ s.stack u, (∃ g, x = .lock g) ∨ x = .runLock) → run (fun _ => [1]) s bs = some s' →
      s'.stack 0 = .lock 1 :: fs ∧ s'.called = s.called ∧ s'.handlers = s.handlers ∧ s'.runs = s.runs := by
    intro bs
    induction bs with
    | nil => intro s s' fs h1 _ _ h; injection h with h; subst h; exact ⟨h1, rfl, rfl, rfl⟩
    | cons b bs ih =>
      intro s s' fs h1 h2 h3 h
      simp only [run] at h
      split at h
      · cases h
      · rename_i s1 hs1
        obtain ⟨g1, g2, g3, g4, g5, g6⟩ := stuck_step h1 h2 h3 hs1
        obtain ⟨k1, k2, k3, k4⟩ := ih s1 s' fs g1 g2 g6 h
        exact ⟨k1, k2.trans g4, k3.trans g3, k4.trans g5⟩
  obtain ⟨h1, h2, h3, h4⟩ := key bs _ s' _ rfl rfl (by
    intro u hu x hx
    simp [set, hu, init] at hx) h
  exact ⟨by rw [h1]; simp, h2, h3, h4⟩

/-- **C114 is false** if a handler throws: it stays registered and is called again by the next run. -/
theorem C114_false_throw : ∃ s, run (fun _ => []) init [.register 0 7, .go 0, .go 0, .go 0, .runAll 0, .go 0, .go 0, .throw 0,
    .runAll 0, .go 0, .go 0] = some s ∧ s.regs = [7] ∧ s.called = [7, 7] := ⟨_, rfl, rfl, rfl⟩

/-- **C114**, partial: if no handler registers or throws, for any number of threads: every run calls exactly the handlers that were
registered when it got the mutex, in reverse order; all registered handlers are handled by the runs in sequence, or still there. -/
theorem C114_partial {s : State} (h : Calm s) :
    (∀ r ∈ s.runs, r.2 = r.1.reverse) ∧
    (s.owner = none → s.regs = (s.runs.map (·.1)).flatten ++ s.handlers ∧ s.called = (s.runs.map (·.2)).flatten ∧
      (s.called ++ s.handlers).Perm s.regs) := by
  have I := calm_inv h
  refine ⟨I.done, ?_⟩
  intro ho
  obtain ⟨f1, f2⟩ := I.free ho
  have hc : s.called = (s.runs.map (·.2)).flatten := by rw [I.called, f1]; simp
  refine ⟨f2, hc, ?_⟩
  rw [f2, hc]
  unfold gone
  refine List.Perm.append_right _ ?_
  have : ∀ l : List (List Nat × List Nat), (∀ r ∈ l, r.2 = r.1.reverse) → ((l.map (·.2)).flatten).Perm ((l.map (·.1)).flatten) := by
    intro l
    induction l with
    | nil => intro _; exact List.Perm.refl _
    | cons r l ih =>
      intro hl
      simp only [List.map_cons, List.flatten_cons]
      refine List.Perm.append ?_ (ih (fun x hx => hl x (List.mem_cons_of_mem _ hx)))
      rw [hl r (List.mem_cons_self ..)]
      exact List.reverse_perm _
  exact this _ I.done

/-- **C114**, partial: also while a run is under way no handler is called more often than it was registered. -/
theorem C114_once_partial {s : State} (h : Calm s) (k : Nat) : s.called.count k ≤ s.regs.count k := by
  have I := calm_inv h
  have hd : ((s.runs.map (·.2)).flatten).count k = (gone s).count k := by
    unfold gone
    have : ∀ l : List (List Nat × List Nat), (∀ r ∈ l, r.2 = r.1.reverse) → ((l.map (·.2)).flatten).count k = ((l.map (·.1)).flatten).count k := by
      intro l
      induction l with
      | nil => intro _; rfl
      | cons r l ih =>
        intro hl
        simp only [List.map_cons, List.flatten_cons, List.count_append]
        rw [ih (fun x hx => hl x (List.mem_cons_of_mem _ hx)), hl r (List.mem_cons_self ..), List.count_reverse]
    exact this _ I.done
  rw [I.called, List.count_append, hd]
  cases ho : s.owner with
  | none =>
    obtain ⟨f1, f2⟩ := I.free ho
    rw [f1, f2]; simp
  | some t =>
    have hp := I.phase t ho
    generalize s.stack t = st at hp
    cases hp with
    | push f a b => rw [a, b]; simp
    | unlock a b => rw [a, b]; simp
    | loop H D a b c =>
      rw [a, b, ← c]
      simp only [Option.map_some, Option.getD_some, List.count_append, List.count_reverse]; omega
    | body k' H D a b c d =>
      rw [a, b, ← d]
      simp only [Option.map_some, Option.getD_some, List.count_append, List.count_reverse]; omega
    | pop H D a b c d =>
      rw [a, b, ← d]
      simp only [Option.map_some, Option.getD_some, List.count_append, List.count_reverse]; omega

/-- **C114**, partial: while a thread is in one of the functions some thread can go on, ... -/
theorem C114_progress_partial {s : State} (h : Calm s) {t : Nat} (ht : s.stack t ≠ []) : ∃ u, (step (fun _ => []) s (.go u)).isSome := by
  have I := calm_inv h
  cases ho : s.owner with
  | some u =>
    refine ⟨u, ?_⟩
    have hp := I.phase u ho
    simp only [step]
    generalize s.stack u = st at hp
    cases hp with
    | push f a b => rfl
    | unlock a b => rfl
    | loop H D a b c => simp only; split <;> rfl
    | body k H D a b c d => rfl
    | pop H D a b c d => rfl
  | none =>
    refine ⟨t, ?_⟩
    obtain ⟨b, h1, h2⟩ := I.shape t
    rw [ho] at h2
    simp only [step]
    generalize s.stack t = st at h1 ht
    cases h1 with
    | idle => exact absurd rfl ht
    | lock f => simp [ho]
    | runLock => simp [ho]
    | push f => have := h2.1 rfl; cases this
    | unlock => have := h2.1 rfl; cases this
    | loop => have := h2.1 rfl; cases this
    | body k => have := h2.1 rfl; cases this
    | pop => have := h2.1 rfl; cases this

/-- ... and a run that finds the mutex free calls all handlers, the last one first, and returns. -/
theorem C114_run_partial {s : State} {t : Nat} (hs : s.stack t = [.runLock]) (ho : s.owner = none) :
    ∃ s', run (fun _ => []) s (List.replicate (3 * s.handlers.length + 2) (.go t)) = some s' ∧ s'.stack t = [] ∧ s'.owner = none ∧
      s'.handlers = [] ∧ s'.called = s.called ++ s.handlers.reverse ∧ s'.regs = s.regs := by
  let s1 : State := { s with owner := some t, cur := some (s.handlers, []), stack := set s.stack t [.loop] }
  have h1 : step (fun _ => []) s (.go t) = some s1 := by simp only [step, hs, ho, if_true]; rfl
  obtain ⟨s', g⟩ := loop_run t s.handlers.length s1 rfl (set_same ..)
  refine ⟨s', ?_, g.2⟩
  rw [show 3 * s.handlers.length + 2 = (3 * s.handlers.length + 1) + 1 by omega, List.replicate_succ]
  simp only [run, h1]
  exact g.1

/-- Two threads register three handlers; a run calls them in reverse order. -/
example : ∃ s, run (fun _ => []) init ([.register 0 5, .register 1 6, .go 1, .go 1, .go 1, .go 0, .go 0, .go 0, .register 1 5, .go 1, .go 1, .go 1,
    .runAll 0] ++ List.replicate 11 (.go 0)) = some s ∧ s.called = [5, 5, 6] ∧ s.handlers = [] ∧ s.stack 0 = [] := ⟨_, rfl, rfl, rfl, rfl⟩

end Foxxll.Exit
