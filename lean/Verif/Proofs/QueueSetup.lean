import Verif.Spec.QueueSetup
/-
Lemmas about queues that could not be created.
-/
namespace Foxxll.QSetup
open Foxxll

theorem find_cons (x : Int × Option DiskQ.Queue) (m : Map) (j : Int) : find (x :: m) j = if x.1 = j then some x.2 else find m j := by
  unfold find
  rw [List.find?_cons]
  by_cases h : x.1 = j
  · simp [h]
  · have : (x.1 == j) = false := by simpa using h
    simp [this, h]

theorem find_append (m m' : Map) (j : Int) : find (m ++ m') j = if (find m j).isSome then find m j else find m' j := by
  induction m with
  | nil => simp [find]
  | cons x m ih =>
    rw [List.cons_append, find_cons, find_cons, ih]
    by_cases h : x.1 = j
    · simp [h]
    · simp [h]

theorem find_map (m : Map) (i j : Int) (q : Option DiskQ.Queue) :
    find (m.map fun x => if x.1 == i then (i, q) else x) j = if j = i then (find m i).map (fun _ => q) else find m j := by
  induction m with
  | nil => simp [find]
  | cons x m ih =>
    rw [List.map_cons, find_cons, ih]
    by_cases h : x.1 = i
    · subst h
      by_cases hj : x.1 = j
      · subst hj; simp [find_cons]
      · have hj' : ¬ j = x.1 := fun e => hj e.symm
        simp [hj, hj', find_cons]
    · have hb : (x.1 == i) = false := by simpa using h
      simp only [hb]
      by_cases hj : j = i
      · subst hj
        simp [h, find_cons]
      · simp [hj, find_cons]

theorem find_set (m : Map) (i j : Int) (q : Option DiskQ.Queue) : find (set m i q) j = if j = i then some q else find m j := by
  unfold set
  split
  · rename_i h
    rw [find_map]
    obtain ⟨y, hy⟩ := Option.isSome_iff_exists.1 h
    simp [hy]
  · rename_i h
    rw [find_append]
    have hn : find m i = none := by simpa using h
    by_cases hj : j = i
    · subst hj; simp [hn, find_cons]
    · cases hf : find m j with
      | some y => simp [hj]
      | none => simp [hj, show ¬ i = j from fun e => hj e.symm, find]

theorem view_set (m : Map) (i : Int) (q : DiskQ.Queue) : view (set m i (some q)) = (view m).set i q := by
  funext j
  unfold view DiskQ.Map.set
  rw [find_set]
  by_cases hj : j = i <;> simp [hj]

theorem sound_set {m : Map} (h : Sound m) (i : Int) (q : DiskQ.Queue) : Sound (set m i (some q)) := by
  intro j
  rw [find_set]
  split
  · simp
  · exact h j

theorem view_none {m : Map} {i : Int} (h : find m i = none) : view m i = none := by simp [view, h]
theorem view_some {m : Map} {i : Int} {q : DiskQ.Queue} (h : find m i = some (some q)) : view m i = some q := by simp [view, h]

theorem create_threw {lhs : Bool} {os : Os} {s s' : St} {f : DiskQ.File} (h : create lhs os s f = .threw s') :
    s'.m = (if lhs then set s.m f.queue none else s.m) ∧ s'.lost = s.lost + (if f.aio = true ∧ os = .noThread then 1 else 0) := by
  unfold create at h
  cases os <;> cases hf : f.aio <;> simp [construct, hf] at h <;> subst h <;> simp

theorem create_ok {lhs : Bool} {os : Os} {s s' : St} {f : DiskQ.File} (h : create lhs os s f = .ok s') :
    s' = { s with m := set s.m f.queue (some (DiskQ.fresh f)) } := by
  unfold create at h
  split at h <;> first | (cases h; done) | (injection h with h; exact h.symm)

theorem create_rest {lhs : Bool} {os : Os} {s : St} {f : DiskQ.File} : create lhs os s f ≠ .ub ∧ create lhs os s f ≠ .die ∧
    (create lhs os s f = .terminated ↔ f.aio = true ∧ os = .noSecond) := by
  unfold create
  cases os <;> cases hf : f.aio <;> simp [construct]

theorem give_threw {s s' : St} {f : DiskQ.File} {r : Nat} : give s f r ≠ .threw s' ∧ give s f r ≠ .terminated := by
  unfold give
  split
  · split <;> exact ⟨(fun h => by cases h), (fun h => by cases h)⟩
  · exact ⟨(fun h => by cases h), (fun h => by cases h)⟩

/-- Giving a request to a queue that is there is the call of `DiskQ`. -/
theorem give_view {s : St} {f : DiskQ.File} {r : Nat} {q : DiskQ.Queue} (hq : find s.m f.queue = some (some q)) (hS : Sound s.m) :
    match give s f r with
    | .ok s' => Sound s'.m ∧ DiskQ.addRequest (view s.m) f r = .ok (view s'.m) ∧ s'.lost = s.lost
    | .die => DiskQ.addRequest (view s.m) f r = .die
    | .ub => DiskQ.addRequest (view s.m) f r = .ub
    | _ => False := by
  simp only [give, hq, DiskQ.addRequest, view_some hq, Option.getD_some]
  cases h : DiskQ.enqueue q f.aio r with
  | ok q' => exact ⟨sound_set hS _ _, by rw [view_set], rfl⟩
  | die => rfl
  | ub => rfl

theorem priority_sound {s : St} (hS : Sound s.m) : priority s = .ok s := by
  unfold priority
  rw [if_neg]
  intro h
  obtain ⟨x, _, hn⟩ := List.any_eq_true.1 h
  exact hS x.1 (by simpa using hn)

theorem mem_of_find {m : Map} {i : Int} {y : Option DiskQ.Queue} (h : find m i = some y) : ∃ x ∈ m, x.1 = i := by
  unfold find at h
  obtain ⟨x, h1, _⟩ := Option.map_eq_some_iff.1 h
  exact ⟨x, List.mem_of_find?_eq_some h1, by simpa using List.find?_some h1⟩

theorem priority_null {s : St} {i : Int} (h : find s.m i = some none) : priority s = .ub := by
  unfold priority
  obtain ⟨x, hx, e⟩ := mem_of_find h
  rw [if_pos]
  exact List.any_eq_true.2 ⟨x, hx, by rw [e, h]; rfl⟩

theorem add_new {m : DiskQ.Map} {f : DiskQ.File} {r : Nat} (h : m f.queue = none) : DiskQ.addRequest m f r = DiskQ.addRequest (m.set f.queue (DiskQ.fresh f)) f r := by
  simp only [DiskQ.addRequest, h, DiskQ.Map.set, Option.getD_none, ite_true, Option.getD_some]
  cases DiskQ.enqueue (DiskQ.fresh f) f.aio r with
  | ok q =>
    show DiskQ.Res.ok _ = DiskQ.Res.ok _
    congr 1
    funext j
    by_cases hj : j = f.queue <;> simp [DiskQ.Map.set, hj]
  | die => rfl
  | ub => rfl

/-- A call, if the queue is created before the entry. -/
theorem step_rhs {s : St} (hS : Sound s.m) (os : Os) (c : Call) :
    match step false s os c with
    | .ok s' => Sound s'.m ∧ (∀ o, c = .op o → DiskQ.step (view s.m) o = .ok (view s'.m)) ∧ (c = .priority → s' = s) ∧ s'.lost = s.lost
    | .threw s' => s'.m = s.m
    | .die => ∃ o, c = .op o ∧ DiskQ.step (view s.m) o = .die
    | .ub => ∃ o, c = .op o ∧ DiskQ.step (view s.m) o = .ub
    | .terminated => True := by
  cases c with
  | priority =>
    simp only [step, priority_sound hS]
    exact ⟨hS, (fun o e => by cases e), (fun _ => by trivial), by trivial⟩
  | op o =>
    cases o with
    | make f =>
      simp only [step, makeQueue]
      cases hf : find s.m f.queue with
      | some y =>
        obtain ⟨q, rfl⟩ : ∃ q, y = some q := by
          cases y with
          | none => exact absurd hf (hS _)
          | some q => exact ⟨q, rfl⟩
        refine ⟨hS, ?_, (fun e => by cases e), rfl⟩
        intro o e; cases e
        simp only [DiskQ.step, DiskQ.makeQueue, view_some hf]
      | none =>
        simp only
        cases hc : create false os s f with
        | ok s' =>
          rw [create_ok hc]
          refine ⟨sound_set hS _ _, ?_, (fun e => by cases e), rfl⟩
          intro o e; cases e
          simp only [DiskQ.step, DiskQ.makeQueue, view_none hf, view_set]
        | threw s' => exact (create_threw hc).1
        | die => exact absurd hc create_rest.2.1
        | ub => exact absurd hc create_rest.1
        | terminated => trivial
    | add f r =>
      simp only [step, addRequest]
      cases hf : find s.m f.queue with
      | some y =>
        obtain ⟨q, rfl⟩ : ∃ q, y = some q := by
          cases y with
          | none => exact absurd hf (hS _)
          | some q => exact ⟨q, rfl⟩
        simp only
        have := give_view (r := r) hf hS
        cases hg : give s f r with
        | ok s' => rw [hg] at this; exact ⟨this.1, (fun o e => by cases e; exact this.2.1), (fun e => by cases e), this.2.2⟩
        | die => rw [hg] at this; exact ⟨_, rfl, this⟩
        | ub => rw [hg] at this; exact ⟨_, rfl, this⟩
        | threw s' => exact absurd hg give_threw.1
        | terminated => trivial
      | none =>
        simp only
        cases hc : create false os s f with
        | ok s1 =>
          simp only
          have e1 := create_ok hc
          have hq : find s1.m f.queue = some (some (DiskQ.fresh f)) := by rw [e1]; simp [find_set]
          have hS1 : Sound s1.m := by rw [e1]; exact sound_set hS _ _
          have hv : DiskQ.addRequest (view s.m) f r = DiskQ.addRequest (view s1.m) f r := by
            rw [e1, view_set]; exact add_new (view_none hf)
          have := give_view (r := r) hq hS1
          have hl : s1.lost = s.lost := by rw [e1]
          cases hg : give s1 f r with
          | ok s' => rw [hg] at this; exact ⟨this.1, (fun o e => by cases e; exact hv.trans this.2.1), (fun e => by cases e), this.2.2.trans hl⟩
          | die => rw [hg] at this; exact ⟨_, rfl, hv.trans this⟩
          | ub => rw [hg] at this; exact ⟨_, rfl, hv.trans this⟩
          | threw s' => exact absurd hg give_threw.1
          | terminated => trivial
        | threw s' => exact (create_threw hc).1
        | die => exact absurd hc create_rest.2.1
        | ub => exact absurd hc create_rest.1
        | terminated => trivial
    | cancel f r =>
      simp only [step, cancel]
      cases hf : find s.m f.queue with
      | none =>
        cases ha : f.aio with
        | true => exact ⟨_, rfl, by simp [DiskQ.step, DiskQ.cancel, view_none hf, ha]⟩
        | false =>
          refine ⟨hS, ?_, (fun e => by cases e), rfl⟩
          intro o e; cases e
          simp [DiskQ.step, DiskQ.cancel, view_none hf, ha]
      | some y =>
        obtain ⟨q, rfl⟩ : ∃ q, y = some q := by
          cases y with
          | none => exact absurd hf (hS _)
          | some q => exact ⟨q, rfl⟩
        cases ha : f.aio <;> cases hq : q.aio <;> simp only [hq, ite_true, ite_false, Bool.false_eq_true, reduceCtorEq]
        · refine ⟨sound_set hS _ _, ?_, (fun e => by cases e), trivial⟩
          intro o e; cases e
          simp [DiskQ.step, DiskQ.cancel, view_some hf, ha, hq, view_set]
        · exact ⟨_, rfl, by simp [DiskQ.step, DiskQ.cancel, view_some hf, ha, hq]⟩
        · exact ⟨_, rfl, by simp [DiskQ.step, DiskQ.cancel, view_some hf, ha, hq]⟩
        · refine ⟨sound_set hS _ _, ?_, (fun e => by cases e), trivial⟩
          intro o e; cases e
          simp [DiskQ.step, DiskQ.cancel, view_some hf, ha, hq, view_set]

theorem sound_nil : Sound [] := fun i h => by cases h

theorem view_nil : view [] = DiskQ.empty := rfl

/-- Runs, if the queue is created before the entry. -/
theorem run_rhs {s s' : St} (hS : Sound s.m) {l : List (Os × Call)} (h : run false s l = .ok s') :
    Sound s'.m ∧ DiskQ.run (view s.m) (returned false s l) = .ok (view s'.m) := by
  induction l generalizing s with
  | nil =>
    simp only [run] at h
    injection h with h; subst h
    exact ⟨hS, rfl⟩
  | cons x l ih =>
    obtain ⟨os, c⟩ := x
    have hs := step_rhs hS os c
    simp only [run] at h
    simp only [returned]
    cases he : step false s os c with
    | ok s1 =>
      simp only [he] at h hs ⊢
      obtain ⟨i1, i2⟩ := ih hs.1 h
      refine ⟨i1, ?_⟩
      cases c with
      | op o => simp only [List.cons_append, List.nil_append, DiskQ.run, hs.2.1 o rfl, i2]
      | priority => rw [hs.2.2.1 rfl] at i2 ⊢; simpa using i2
    | threw s1 =>
      simp only [he] at h hs ⊢
      obtain ⟨i1, i2⟩ := ih (s := s1) (by rw [hs]; exact hS) h
      rw [hs] at i2
      exact ⟨i1, i2⟩
    | die => simp [he] at h
    | ub => simp [he] at h
    | terminated => simp [he] at h

theorem run_bad {s : St} (hS : Sound s.m) {l : List (Os × Call)} (h : run false s l = .ub) :
    ∃ l1 os o l2 s1, l = l1 ++ (os, .op o) :: l2 ∧ run false s l1 = .ok s1 ∧ DiskQ.step (view s1.m) o = .ub := by
  induction l generalizing s with
  | nil => cases h
  | cons x l ih =>
    obtain ⟨os, c⟩ := x
    have hs := step_rhs hS os c
    simp only [run] at h
    cases he : step false s os c with
    | ok s1 =>
      simp only [he] at h hs
      obtain ⟨l1, os', o, l2, s2, e1, e2, e3⟩ := ih hs.1 h
      exact ⟨(os, c) :: l1, os', o, l2, s2, by rw [e1]; rfl, by simp only [run, he]; exact e2, e3⟩
    | threw s1 =>
      simp only [he] at h hs
      obtain ⟨l1, os', o, l2, s2, e1, e2, e3⟩ := ih (s := s1) (by rw [hs]; exact hS) h
      exact ⟨(os, c) :: l1, os', o, l2, s2, by rw [e1]; rfl, by simp only [run, he]; exact e2, e3⟩
    | die => simp [he] at h
    | ub =>
      simp only [he] at hs
      obtain ⟨o, rfl, h2⟩ := hs
      exact ⟨[], os, o, l, s, rfl, rfl, h2⟩
    | terminated => simp [he] at h

/-! ### The entry first -/

/-- Entries do not change from a null pointer, nor to one except by an exception. -/
theorem step_null {lhs : Bool} {s : St} {os : Os} {c : Call} {s' : St} (i : Int) :
    (step lhs s os c = .ok s' → (find s'.m i = some none ↔ find s.m i = some none)) ∧
    (step lhs s os c = .threw s' → ∃ f, c.file = some f ∧ find s.m f.queue = none ∧ s'.m = (if lhs then set s.m f.queue none else s.m)) := by
  have hgive : ∀ {s s' : St} {f : DiskQ.File} {r : Nat}, give s f r = .ok s' → (find s'.m i = some none ↔ find s.m i = some none) := by
    intro s s' f r h
    unfold give at h
    split at h
    · rename_i q hq
      split at h
      · injection h with h; subst h
        show find (set s.m f.queue _) i = _ ↔ _
        rw [find_set]
        by_cases hi : i = f.queue
        · subst hi; simp [hq]
        · simp [hi]
      · cases h
      · cases h
    · cases h
  have hcreate : ∀ {f : DiskQ.File} {s s' : St}, find s.m f.queue = none → create lhs os s f = .ok s' → (find s'.m i = some none ↔ find s.m i = some none) := by
    intro f s s' hf h
    rw [create_ok h]
    show find (set s.m f.queue _) i = _ ↔ _
    rw [find_set]
    by_cases hi : i = f.queue
    · subst hi; simp [hf]
    · simp [hi]
  cases c with
  | priority =>
    simp only [step, priority]
    split
    · exact ⟨(fun h => by cases h), (fun h => by cases h)⟩
    · exact ⟨(fun h => by cases h; exact Iff.rfl), (fun h => by cases h)⟩
  | op o =>
    cases o with
    | make f =>
      simp only [step, makeQueue]
      cases hf : find s.m f.queue with
      | some y => exact ⟨(fun h => by cases h; exact Iff.rfl), (fun h => by cases h)⟩
      | none => exact ⟨hcreate hf, fun h => ⟨f, rfl, hf, (create_threw h).1⟩⟩
    | add f r =>
      simp only [step, addRequest]
      cases hf : find s.m f.queue with
      | some y => exact ⟨hgive, fun h => absurd h give_threw.1⟩
      | none =>
        simp only
        cases hc : create lhs os s f with
        | ok s1 => exact ⟨fun h => (hgive h).trans (hcreate hf hc), fun h => absurd h give_threw.1⟩
        | threw s1 =>
          refine ⟨(fun h => by cases h), fun h => ?_⟩
          cases h
          exact ⟨f, rfl, hf, (create_threw hc).1⟩
        | die => exact ⟨(fun h => by cases h), (fun h => by cases h)⟩
        | ub => exact ⟨(fun h => by cases h), (fun h => by cases h)⟩
        | terminated => exact ⟨(fun h => by cases h), (fun h => by cases h)⟩
    | cancel f r =>
      simp only [step, cancel]
      have hc : ∀ q q' : DiskQ.Queue, find s.m f.queue = some (some q) → (find (set s.m f.queue (some q')) i = some none ↔ find s.m i = some none) := by
        intro q q' hq
        rw [find_set]
        by_cases hi : i = f.queue
        · subst hi; simp [hq]
        · simp [hi]
      cases hf : find s.m f.queue with
      | none =>
        simp only
        split
        · exact ⟨(fun h => by cases h), (fun h => by cases h)⟩
        · exact ⟨(fun h => by cases h; exact Iff.rfl), (fun h => by cases h)⟩
      | some y =>
        cases y with
        | none => exact ⟨(fun h => by cases h), (fun h => by cases h)⟩
        | some q =>
          simp only
          split
          · split
            · exact ⟨(fun h => by cases h; exact hc q _ hf), (fun h => by cases h)⟩
            · exact ⟨(fun h => by cases h), (fun h => by cases h)⟩
          · split
            · exact ⟨(fun h => by cases h), (fun h => by cases h)⟩
            · exact ⟨(fun h => by cases h; exact hc q _ hf), (fun h => by cases h)⟩

theorem step_keeps {lhs : Bool} {s s' : St} {os : Os} {c : Call} {i : Int} (hn : find s.m i = some none) (h : step lhs s os c = .ok s' ∨ step lhs s os c = .threw s') :
    find s'.m i = some none := by
  rcases h with h | h
  · exact ((step_null i).1 h).2 hn
  · obtain ⟨f, _, h2, h3⟩ := (step_null i).2 h
    rw [h3]
    split
    · rw [find_set]; split
      · rfl
      · exact hn
    · exact hn

theorem run_keeps {lhs : Bool} {s s' : St} {l : List (Os × Call)} {i : Int} (hn : find s.m i = some none) (h : run lhs s l = .ok s') : find s'.m i = some none := by
  induction l generalizing s with
  | nil => simp only [run] at h; injection h with h; subst h; exact hn
  | cons x l ih =>
    obtain ⟨os, c⟩ := x
    simp only [run] at h
    cases he : step lhs s os c with
    | ok s1 => simp only [he] at h; exact ih (step_keeps hn (.inl he)) h
    | threw s1 => simp only [he] at h; exact ih (step_keeps hn (.inr he)) h
    | _ => simp [he] at h

theorem run_null {s s' : St} {l : List (Os × Call)} {i : Int} (h : run true s l = .ok s') : find s'.m i = some none ↔ find s.m i = some none ∨
    ∃ l1 os c l2 s1 s2 f, l = l1 ++ (os, c) :: l2 ∧ run true s l1 = .ok s1 ∧ step true s1 os c = .threw s2 ∧ c.file = some f ∧ f.queue = i := by
  induction l generalizing s with
  | nil =>
    simp only [run] at h; injection h with h; subst h
    constructor
    · exact .inl
    · rintro (h | ⟨l1, _, _, _, _, _, _, e, _⟩)
      · exact h
      · simp at e
  | cons x l ih =>
    obtain ⟨os, c⟩ := x
    simp only [run] at h
    have step1 : ∀ s1, (step true s os c = .ok s1 ∨ step true s os c = .threw s1) → run true s1 l = .ok s' →
        (find s1.m i = some none ↔ find s.m i = some none ∨ ∃ s2 f, step true s os c = .threw s2 ∧ c.file = some f ∧ f.queue = i) →
        (find s'.m i = some none ↔ find s.m i = some none ∨
          ∃ l1 os' c' l2 s1 s2 f, (os, c) :: l = l1 ++ (os', c') :: l2 ∧ run true s l1 = .ok s1 ∧ step true s1 os' c' = .threw s2 ∧ c'.file = some f ∧ f.queue = i) := by
      intro s1 he hr hiff
      rw [ih hr, hiff]
      have hrun : ∀ l1, run true s ((os, c) :: l1) = run true s1 l1 := by
        intro l1; rcases he with he | he <;> simp only [run, he]
      constructor
      · rintro ((h | ⟨s2, f, h1, h2, h3⟩) | ⟨l1, os', c', l2, t1, t2, f, e1, e2, e3, e4, e5⟩)
        · exact .inl h
        · exact .inr ⟨[], os, c, l, s, s2, f, rfl, rfl, h1, h2, h3⟩
        · exact .inr ⟨(os, c) :: l1, os', c', l2, t1, t2, f, by rw [e1]; rfl, by rw [hrun]; exact e2, e3, e4, e5⟩
      · rintro (h | ⟨l1, os', c', l2, t1, t2, f, e1, e2, e3, e4, e5⟩)
        · exact .inl (.inl h)
        · cases l1 with
          | nil =>
            simp only [List.nil_append, List.cons.injEq, Prod.mk.injEq] at e1
            obtain ⟨⟨rfl, rfl⟩, rfl⟩ := e1
            simp only [run] at e2
            injection e2 with e2; subst e2
            exact .inl (.inr ⟨t2, f, e3, e4, e5⟩)
          | cons y l1 =>
            simp only [List.cons_append, List.cons.injEq] at e1
            obtain ⟨rfl, rfl⟩ := e1
            rw [hrun] at e2
            exact .inr ⟨l1, os', c', l2, t1, t2, f, rfl, e2, e3, e4, e5⟩
    cases he : step true s os c with
    | ok s1 =>
      simp only [he] at h
      refine step1 s1 (.inl he) h ?_
      rw [(step_null i).1 he]
      constructor
      · exact .inl
      · rintro (h | ⟨s2, f, h1, _⟩)
        · exact h
        · rw [he] at h1; cases h1
    | threw s1 =>
      simp only [he] at h
      refine step1 s1 (.inr he) h ?_
      obtain ⟨f, h1, h2, h3⟩ := (step_null i).2 he
      have h3 : s1.m = set s.m f.queue none := h3
      rw [h3, find_set]
      constructor
      · intro hn
        split at hn
        · rename_i e; exact .inr ⟨s1, f, he, h1, e.symm⟩
        · exact .inl hn
      · rintro (hn | ⟨s2, g, _, g2, g3⟩)
        · split
          · rfl
          · exact hn
        · rw [h1] at g2; injection g2 with g2; subst g2
          rw [if_pos g3.symm]
    | _ => simp [he] at h

/-! ### The block manager -/

theorem make_keeps {lhs : Bool} {s s' : St} {os : Os} {f : DiskQ.File} {i : Int} (hn : find s.m i = some none) (h : makeQueue lhs os s f = .ok s') :
    find s'.m i = some none := step_keeps (lhs := lhs) (os := os) (c := .op (.make f)) hn (.inl h)

theorem openAll_keeps {lhs : Bool} {s s' : St} {l : List (Os × DiskQ.File)} {i : Int} (hn : find s.m i = some none) (h : openAll lhs s l = .ok s') :
    find s'.m i = some none := by
  induction l generalizing s with
  | nil => simp only [openAll] at h; injection h with h; subst h; exact hn
  | cons x l ih =>
    obtain ⟨os, f⟩ := x
    simp only [openAll] at h
    cases he : makeQueue lhs os s f with
    | ok s1 => simp only [he] at h; exact ih (make_keeps hn he) h
    | _ => simp [he] at h

theorem openAll_threw {lhs : Bool} {s s' : St} {l : List (Os × DiskQ.File)} (h : openAll lhs s l = .threw s') :
    ∃ x ∈ l, (lhs = true → find s'.m x.2.queue = some none) ∧ (lhs = false → find s'.m x.2.queue = none) := by
  induction l generalizing s with
  | nil => cases h
  | cons x l ih =>
    obtain ⟨os, f⟩ := x
    simp only [openAll] at h
    cases he : makeQueue lhs os s f with
    | ok s1 =>
      simp only [he] at h
      obtain ⟨x, h1, h2⟩ := ih h
      exact ⟨x, List.mem_cons_of_mem _ h1, h2⟩
    | threw s1 =>
      simp only [he] at h
      injection h with h; subst h
      obtain ⟨g, h1, h2, h3⟩ := (step_null (lhs := lhs) (os := os) (c := .op (.make f)) (s := s) (s' := s1) 0).2 he
      have hg : f = g := Option.some.inj h1
      subst hg
      refine ⟨(os, f), List.mem_cons_self, ?_, ?_⟩
      · rintro rfl; rw [h3]; simp [find_set]
      · rintro rfl; rw [h3]; exact h2
    | _ => simp [he] at h

theorem openAll_ok {lhs : Bool} (s : St) (fs : List DiskQ.File) : ∃ s', openAll lhs s (fs.map fun f => (.ok, f)) = .ok s' := by
  induction fs generalizing s with
  | nil => exact ⟨s, rfl⟩
  | cons f fs ih =>
    simp only [List.map_cons, openAll, makeQueue]
    cases hf : find s.m f.queue with
    | some y => exact ih s
    | none => exact ih _

end Foxxll.QSetup
