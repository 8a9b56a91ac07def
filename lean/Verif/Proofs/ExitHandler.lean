/-
Invariants of the exit handlers.
-/
import Verif.Model.ExitHandler

namespace Foxxll.Exit

/-- Reachable states. -/
def Reach (reg : Nat → List Nat) (s : State) : Prop := ∃ as, run reg init as = some s

/-- Reachable without exceptions, if no handler registers handlers. -/
inductive Calm : State → Prop
  | start : Calm init
  | next {s s' : State} (a : Act) : Calm s → (∀ t, a ≠ .throw t) → step (fun _ => []) s a = some s' → Calm s'

/-- The handlers of all finished runs. -/
def gone (s : State) : List Nat := (s.runs.map (·.1)).flatten

/-- The stacks that occur. -/
inductive Shape : List Frame → Bool → Prop
  | idle : Shape [] false
  | lock (f : Nat) : Shape [.lock f] false
  | runLock : Shape [.runLock] false
  | push (f : Nat) : Shape [.push f] true
  | unlock : Shape [.unlock] true
  | loop : Shape [.loop] true
  | body (k : Nat) : Shape [.body k [], .pop] true
  | pop : Shape [.pop] true

/-- What the thread with the mutex is doing. -/
inductive Phase (s : State) : List Frame → Prop
  | push (f : Nat) : s.cur = none → s.regs = gone s ++ s.handlers → Phase s [.push f]
  | unlock : s.cur = none → s.regs = gone s ++ s.handlers → Phase s [.unlock]
  | loop (H D : List Nat) : s.cur = some (H, D) → s.regs = gone s ++ H → s.handlers ++ D.reverse = H → Phase s [.loop]
  | body (k : Nat) (H D : List Nat) : s.cur = some (H, D) → s.regs = gone s ++ H → s.handlers ≠ [] → s.handlers.dropLast ++ D.reverse = H →
      Phase s [.body k [], .pop]
  | pop (H D : List Nat) : s.cur = some (H, D) → s.regs = gone s ++ H → s.handlers ≠ [] → s.handlers.dropLast ++ D.reverse = H → Phase s [.pop]

structure Inv (s : State) : Prop where
  shape : ∀ t, ∃ b, Shape (s.stack t) b ∧ (b = true ↔ s.owner = some t)
  free : s.owner = none → s.cur = none ∧ s.regs = gone s ++ s.handlers
  phase : ∀ t, s.owner = some t → Phase s (s.stack t)
  done : ∀ r ∈ s.runs, r.2 = r.1.reverse
  called : s.called = (s.runs.map (·.2)).flatten ++ (s.cur.map (·.2)).getD []

theorem set_same {α : Type} (f : Nat → α) (i : Nat) (a : α) : set f i a i = a := by simp [set]

theorem set_other {α : Type} (f : Nat → α) {i j : Nat} (a : α) (h : j ≠ i) : set f i a j = f j := by simp [set, h]

theorem inv_init : Inv init := by
  refine ⟨fun t => ⟨false, .idle, by simp [init]⟩, fun _ => ⟨rfl, rfl⟩, ?_, by simp [init], rfl⟩
  intro t h; cases h

theorem shape_fun {l : List Frame} {a b : Bool} (h : Shape l a) (g : Shape l b) : a = b := by
  cases h <;> cases g <;> rfl

/-- New shapes after a step of thread `t`. -/
theorem shape_step {s : State} (I : Inv s) {t : Nat} {st : List Frame} {o : Option Nat} {b : Bool} (h : Shape st b)
    (hb : b = true ↔ o = some t) (ho : ∀ u, u ≠ t → (o = some u ↔ s.owner = some u)) :
    ∀ u, ∃ b, Shape (set s.stack t st u) b ∧ (b = true ↔ o = some u) := by
  intro u
  by_cases hu : u = t
  · subst hu; rw [set_same]; exact ⟨b, h, hb⟩
  · rw [set_other _ _ hu]
    obtain ⟨b', h1, h2⟩ := I.shape u
    exact ⟨b', h1, h2.trans (ho u hu).symm⟩

theorem inv_step {s s' : State} (I : Inv s) {a : Act} (hn : ∀ t, a ≠ .throw t) (h : step (fun _ => []) s a = some s') : Inv s' := by
  cases a with
  | throw t => exact absurd rfl (hn t)
  | register t f =>
    simp only [step] at h
    split at h
    · rename_i he
      injection h with h; subst h
      obtain ⟨b, h1, h2⟩ := I.shape t
      rw [he] at h1
      cases h1
      have ht : s.owner ≠ some t := fun e => by have := h2.2 e; cases this
      refine ⟨shape_step I (.lock f) (by simp [ht]) (fun u _ => Iff.rfl), I.free, ?_, I.done, I.called⟩
      intro u hu
      have hut : u ≠ t := fun e => ht (e ▸ hu)
      show Phase _ (set s.stack t [.lock f] u)
      rw [set_other _ _ hut]
      have hp := I.phase u hu
      revert hp
      intro hp
      generalize hl : s.stack u = l at hp ⊢
      cases hp with
      | push f a b => exact .push f a b
      | unlock a b => exact .unlock a b
      | loop H D a b c => exact .loop H D a b c
      | body k H D a b c d => exact .body k H D a b c d
      | pop H D a b c d => exact .pop H D a b c d
    · cases h
  | runAll t =>
    simp only [step] at h
    split at h
    · rename_i he
      injection h with h; subst h
      obtain ⟨b, h1, h2⟩ := I.shape t
      rw [he] at h1
      cases h1
      have ht : s.owner ≠ some t := fun e => by have := h2.2 e; cases this
      refine ⟨shape_step I .runLock (by simp [ht]) (fun u _ => Iff.rfl), I.free, ?_, I.done, I.called⟩
      intro u hu
      have hut : u ≠ t := fun e => ht (e ▸ hu)
      show Phase _ (set s.stack t [.runLock] u)
      rw [set_other _ _ hut]
      have hp := I.phase u hu
      generalize hl : s.stack u = l at hp ⊢
      cases hp with
      | push f a b => exact .push f a b
      | unlock a b => exact .unlock a b
      | loop H D a b c => exact .loop H D a b c
      | body k H D a b c d => exact .body k H D a b c d
      | pop H D a b c d => exact .pop H D a b c d
    · cases h
  | go t =>
    obtain ⟨b, h1, h2⟩ := I.shape t
    simp only [step] at h
    generalize hst : s.stack t = st at h h1
    cases h1 with
    | idle => cases h
    | lock f =>
      simp only at h
      split at h
      · rename_i ho
        injection h with h; subst h
        obtain ⟨f1, f2⟩ := I.free ho
        refine ⟨shape_step I (.push f) (by simp) (by intro u hu; simp [ho]; exact fun e => hu e.symm), by simp, ?_, I.done, I.called⟩
        intro u hu
        injection hu with hu; subst hu
        show Phase _ (set s.stack t [.push f] t)
        rw [set_same]
        exact .push f f1 f2
      · cases h
    | runLock =>
      simp only at h
      split at h
      · rename_i ho
        injection h with h; subst h
        obtain ⟨f1, f2⟩ := I.free ho
        refine ⟨shape_step I .loop (by simp) (by intro u hu; simp [ho]; exact fun e => hu e.symm), by simp, ?_, I.done, ?_⟩
        · intro u hu
          injection hu with hu; subst hu
          show Phase _ (set s.stack t [.loop] t)
          rw [set_same]
          exact .loop s.handlers [] rfl f2 (by simp)
        · show s.called = _
          rw [I.called, f1]; rfl
      · cases h
    | push f =>
      have ho : s.owner = some t := h2.1 rfl
      injection h with h; subst h
      have hp := I.phase t ho
      rw [hst] at hp
      cases hp with
      | push _ a b =>
        refine ⟨shape_step I .unlock (by simp [ho]) (fun u _ => Iff.rfl), ?_, ?_, I.done, I.called⟩
        · intro h; rw [show s.owner = none from h] at ho; cases ho
        · intro u hu
          have : u = t := by rw [show s.owner = some u from hu] at ho; injection ho
          subst this
          show Phase _ (set s.stack u [.unlock] u)
          rw [set_same]
          refine .unlock a ?_
          show s.regs ++ [f] = gone s ++ (s.handlers ++ [f])
          rw [b, List.append_assoc]
    | unlock =>
      have ho : s.owner = some t := h2.1 rfl
      injection h with h; subst h
      have hp := I.phase t ho
      rw [hst] at hp
      cases hp with
      | unlock a b =>
        refine ⟨shape_step I .idle (by simp) (by intro u hu; rw [ho]; simp; exact fun e => hu e.symm), fun _ => ⟨a, b⟩, ?_, I.done, I.called⟩
        intro u hu; cases hu
    | loop =>
      have ho : s.owner = some t := h2.1 rfl
      have hp := I.phase t ho
      rw [hst] at hp
      cases hp with
      | loop H D a b c =>
        simp only at h
        split at h
        · rename_i he
          injection h with h; subst h
          have he : s.handlers = [] := by simpa using he
          rw [he, List.nil_append] at c
          have hg : ((s.runs ++ s.cur.toList).map (·.1)).flatten = gone s ++ H := by rw [a]; simp [gone]
          refine ⟨shape_step I .idle (by simp) (by intro u hu; rw [ho]; simp; exact fun e => hu e.symm), fun _ => ⟨rfl, ?_⟩, ?_, ?_, ?_⟩
          · show s.regs = ((s.runs ++ s.cur.toList).map (·.1)).flatten ++ s.handlers
            rw [hg, he, b, List.append_nil]
          · intro u hu; cases hu
          · intro r hr
            rw [a] at hr
            simp only [Option.toList_some, List.mem_append, List.mem_singleton] at hr
            rcases hr with hr | hr
            · exact I.done r hr
            · subst hr; simp only; rw [← c]; simp
          · show s.called = ((s.runs ++ s.cur.toList).map (·.2)).flatten ++ []
            rw [I.called, a]; simp
        · rename_i k hk
          injection h with h; subst h
          have hne : s.handlers ≠ [] := by intro e; rw [e] at hk; cases hk
          have hlast : s.handlers.dropLast ++ [k] = s.handlers := by
            have := List.dropLast_concat_getLast hne
            rw [List.getLast?_eq_some_getLast hne] at hk
            injection hk with hk
            rw [hk] at this; exact this
          refine ⟨shape_step I (.body k) (by simp [ho]) (fun u _ => Iff.rfl), ?_, ?_, I.done, ?_⟩
          · intro h; rw [show s.owner = none from h] at ho; cases ho
          · intro u hu
            have : u = t := by rw [show s.owner = some u from hu] at ho; injection ho
            subst this
            show Phase _ (set s.stack u [.body k [], .pop] u)
            rw [set_same]
            refine .body k H (D ++ [k]) ?_ b hne ?_
            · show s.cur.map _ = _
              rw [a]; rfl
            · show s.handlers.dropLast ++ (D ++ [k]).reverse = H
              rw [List.reverse_append, ← List.append_assoc]
              show s.handlers.dropLast ++ [k] ++ D.reverse = H
              rw [hlast]; exact c
          · show s.called ++ [k] = _
            rw [I.called, a]; simp
    | body k =>
      have ho : s.owner = some t := h2.1 rfl
      have hp := I.phase t ho
      rw [hst] at hp
      cases hp with
      | body _ H D a b c d =>
        injection h with h; subst h
        refine ⟨shape_step I .pop (by simp [ho]) (fun u _ => Iff.rfl), ?_, ?_, I.done, I.called⟩
        · intro h; rw [show s.owner = none from h] at ho; cases ho
        · intro u hu
          have : u = t := by rw [show s.owner = some u from hu] at ho; injection ho
          subst this
          show Phase _ (set s.stack u [.pop] u)
          rw [set_same]
          exact .pop H D a b c d
    | pop =>
      have ho : s.owner = some t := h2.1 rfl
      have hp := I.phase t ho
      rw [hst] at hp
      cases hp with
      | pop H D a b c d =>
        injection h with h; subst h
        refine ⟨shape_step I .loop (by simp [ho]) (fun u _ => Iff.rfl), ?_, ?_, I.done, I.called⟩
        · intro h; rw [show s.owner = none from h] at ho; cases ho
        · intro u hu
          have : u = t := by rw [show s.owner = some u from hu] at ho; injection ho
          subst this
          show Phase _ (set s.stack u [.loop] u)
          rw [set_same]
          exact .loop H D a b d

theorem calm_inv {s : State} (h : Calm s) : Inv s := by
  induction h with
  | start => exact inv_init
  | next a _ hn hs ih => exact inv_step ih hn hs

/-- A thread that holds the mutex and waits for it keeps waiting. -/
theorem stuck_step {reg : Nat → List Nat} {s s' : State} {t f : Nat} {fs : List Frame} (hs : s.stack t = .lock f :: fs) (ho : s.owner = some t)
    (inv : ∀ u, u ≠ t → ∀ x ∈ s.stack u, (∃ g, x = .lock g) ∨ x = .runLock) {a : Act} (h : step reg s a = some s') :
    s'.stack t = .lock f :: fs ∧ s'.owner = some t ∧ s'.handlers = s.handlers ∧ s'.called = s.called ∧ s'.runs = s.runs ∧
    (∀ u, u ≠ t → ∀ x ∈ s'.stack u, (∃ g, x = .lock g) ∨ x = .runLock) := by
  have others : ∀ (u : Nat) (st : List Frame), u ≠ t → (∀ x ∈ st, (∃ g, x = .lock g) ∨ x = .runLock) →
      ∀ v, v ≠ t → ∀ x ∈ set s.stack u st v, (∃ g, x = .lock g) ∨ x = .runLock := by
    intro u st _ hst v hv x hx
    by_cases hvu : v = u
    · subst hvu; rw [set_same] at hx; exact hst x hx
    · rw [set_other _ _ hvu] at hx; exact inv v hv x hx
  have keep : ∀ (u : Nat) (st : List Frame), u ≠ t → set s.stack u st t = .lock f :: fs := by
    intro u st hu; rw [set_other _ _ (Ne.symm hu)]; exact hs
  cases a with
  | register u g =>
    simp only [step] at h
    split at h
    · rename_i he
      have hu : u ≠ t := by intro e; subst e; rw [hs] at he; cases he
      injection h with h; subst h
      exact ⟨keep u _ hu, ho, rfl, rfl, rfl, others u _ hu (by simp)⟩
    · cases h
  | runAll u =>
    simp only [step] at h
    split at h
    · rename_i he
      have hu : u ≠ t := by intro e; subst e; rw [hs] at he; cases he
      injection h with h; subst h
      exact ⟨keep u _ hu, ho, rfl, rfl, rfl, others u _ hu (by simp)⟩
    · cases h
  | throw u =>
    simp only [step] at h
    split at h
    · rename_i heq
      have hu : u ≠ t := by intro e; subst e; rw [hs] at heq; cases heq
      have := inv u hu _ (by rw [heq]; exact List.mem_cons_self ..)
      rcases this with ⟨g, hg⟩ | hg <;> cases hg
    · cases h
  | go u =>
    by_cases hu : u = t
    · subst hu
      simp only [step, hs, ho] at h
      cases h
    · have hi := inv u hu
      simp only [step] at h
      generalize hst : s.stack u = st at h hi
      cases st with
      | nil => cases h
      | cons x xs =>
        rcases hi x (List.mem_cons_self ..) with ⟨g, hg⟩ | hg
        · subst hg; simp [ho] at h
        · subst hg; simp [ho] at h

theorem run_append (reg : Nat → List Nat) (s : State) (as bs : List Act) :
    run reg s (as ++ bs) = (run reg s as).bind (fun s' => run reg s' bs) := by
  induction as generalizing s with
  | nil => rfl
  | cons a as ih =>
    simp only [List.cons_append, run]
    cases step reg s a with
    | none => rfl
    | some s1 => exact ih s1

/-- The loop of a run that is not disturbed. -/
theorem loop_run (t : Nat) (n : Nat) (s : State) (hn : s.handlers.length = n) (hs : s.stack t = [.loop]) :
    ∃ s', run (fun _ => []) s (List.replicate (3 * n + 1) (.go t)) = some s' ∧ s'.stack t = [] ∧ s'.owner = none ∧ s'.handlers = [] ∧
      s'.called = s.called ++ s.handlers.reverse ∧ s'.regs = s.regs := by
  induction n generalizing s with
  | zero =>
    have he : s.handlers = [] := List.length_eq_zero_iff.1 hn
    refine ⟨{ s with handlers := [], owner := none, cur := none, runs := s.runs ++ s.cur.toList, stack := set s.stack t [] },
      by simp only [Nat.mul_zero, Nat.zero_add, List.replicate_one, run, step, hs, he, List.getLast?_nil], set_same .., rfl, rfl, ?_, rfl⟩
    rw [he]; simp
  | succ n ih =>
    have hne : s.handlers ≠ [] := by intro e; rw [e] at hn; cases hn
    have hl := List.getLast?_eq_some_getLast hne
    have hd := List.dropLast_concat_getLast hne
    generalize s.handlers.getLast hne = k at hl hd
    let s3 : State := { s with called := s.called ++ [k], cur := s.cur.map (fun c => (c.1, c.2 ++ [k])), handlers := s.handlers.dropLast,
                               stack := set (set (set s.stack t [.body k [], .pop]) t [.pop]) t [.loop] }
    have h3 : run (fun _ => []) s [.go t, .go t, .go t] = some s3 := by
      simp only [run, step, hs, hl, set_same]
      rfl
    obtain ⟨s', g1, g2, g3, g4, g5, g6⟩ := ih s3 (by show s.handlers.dropLast.length = n; rw [List.length_dropLast]; omega) (set_same ..)
    refine ⟨s', ?_, g2, g3, g4, ?_, g6⟩
    · rw [show 3 * (n + 1) + 1 = 3 + (3 * n + 1) by omega, ← List.replicate_append_replicate, run_append]
      show (run (fun _ => []) s [.go t, .go t, .go t]).bind _ = _
      rw [h3]
      exact g1
    · rw [g5]
      show s.called ++ [k] ++ s.handlers.dropLast.reverse = _
      rw [← hd]; simp

end Foxxll.Exit
