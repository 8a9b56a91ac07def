import Verif.Proofs.Singleton
/-
C83-C85: singletons.
-/
set_option linter.unusedSimpArgs false
namespace Foxxll.Single

/-! ### C83: one object for each singleton -/

/-- Whatever the interleaving of the threads, all calls of `get_instance` of a singleton return the
same object, whose constructor has returned; no other object is ever constructed. -/
theorem C83_unique {dep : Nat → List Nat} {s : State} (h : Reach dep s) :
    (∀ i p q, (i, p) ∈ s.got → (i, q) ∈ s.got → p = q) ∧
    (∀ i p, (i, p) ∈ s.got → ∃ k, p = .obj k ∧ (i, k) ∈ s.built) ∧
    (∀ i k l, (i, k) ∈ s.built → (i, l) ∈ s.built → k = l) ∧ s.built.Nodup := by
  have I := reach_inv h
  refine ⟨?_, ?_, ?_, ?_⟩
  · intro i p q h1 h2; rw [(I.got i p h1).1, (I.got i q h2).1]
  · intro i p h1
    obtain ⟨h2, h3⟩ := I.got i p h1
    cases p with
    | null => exact absurd rfl h3
    | bomb => exact absurd h2.symm (I.bomb i)
    | obj k => exact ⟨k, rfl, (I.built i k).mp h2.symm⟩
  · intro i k l h1 h2
    rw [← I.built] at h1 h2
    rw [h1] at h2; cases h2; rfl
  · have := I.bnd
    rw [List.nodup_iff_pairwise_ne, List.pairwise_map] at this
    exact this.imp (fun h e => h (by rw [e]))

/-- At no time two threads run the constructor of the same singleton. -/
theorem C83_exclusive {dep : Nat → List Nat} {s : State} (h : Reach dep s) {t u i : Nat} {q r : List Nat}
    (ht : .ctor i q ∈ s.stack t) (hu : .ctor i r ∈ s.stack u) : t = u := by
  have I := reach_inv h
  have h1 := (I.own t i).mpr (mem_held ht rfl)
  have h2 := (I.own u i).mpr (mem_held hu rfl)
  rw [h1] at h2; cases h2; rfl

/-- An exception of a constructor leaves nothing behind: the pointers and the registered handlers are
the same, the thread holds no mutex; so the next call constructs the object. -/
theorem C83_exception {dep : Nat → List Nat} {s s' : State} (h : Reach dep s) {t : Nat} (hs : step dep s (.throw t) = some s') :
    s'.inst = s.inst ∧ s'.handlers = s.handlers ∧ s'.built = s.built ∧ (∀ i, s'.owner i ≠ some t) ∧
    (∀ i u, u ≠ t → (s'.owner i = some u ↔ s.owner i = some u)) := by
  have I := reach_inv h
  have I' := step_inv I (fun f => f.elim) hs
  have hoth : ∀ u, u ≠ t → s'.stack u = s.stack u := fun u hu => step_stack hs hu
  have hown : ∀ i u, u ≠ t → (s'.owner i = some u ↔ s.owner i = some u) := by
    intro i u hu; rw [I'.own, I.own, hoth u hu]
  simp only [step] at hs
  split at hs
  · cases hs
    refine ⟨rfl, rfl, rfl, ?_, hown⟩
    intro i hi
    rw [I'.own] at hi
    simp only [set_same, held, List.not_mem_nil] at hi
  · cases hs

/-- Two threads call `get_instance` of `disk_queues`; both see the null pointer. -/
def twoQueues : List Act :=
  [.call 0 QUEUES, .call 1 QUEUES, .go 0, .go 1, .go 1, .go 1, .go 1] ++ List.replicate 9 (.go 1) ++ List.replicate 3 (.go 0)
example : ∃ s, run (libDep 2) init twoQueues = some s ∧ s.got = [(STATS, .obj 0), (QUEUES, .obj 1), (QUEUES, .obj 1)] ∧ s.built = [(STATS, 0), (QUEUES, 1)] :=
  ⟨_, rfl, rfl, rfl⟩
example : ∃ s s', run (libDep 2) init [.call 0 QUEUES, .go 0, .go 0, .go 0] = some s ∧ step (libDep 2) s (.throw 0) = some s' ∧
    s.owner QUEUES = some 0 ∧ s'.owner QUEUES = none := ⟨_, _, rfl, rfl, rfl, rfl⟩

/-! ### C84: singletons are destroyed before those they use -/

/-- One thread creates the statistics; before it registers their destruction, another thread gets
them in the constructor of `disk_queues`, which is therefore registered first. -/
def race : List Act :=
  [.call 0 STATS, .go 0, .go 0, .go 0, .go 0, .call 1 QUEUES] ++ List.replicate 7 (.go 1) ++ [.go 0, .go 0] ++ [.go 1]

/-- The property fails: afterwards no thread is inside `get_instance`; at the end of the program the
statistics are destroyed first, and the destructor of `disk_queues` uses them. -/
theorem C84_false : ∃ s, run (libDep 2) init race = some s ∧ (∀ t, t < 2 → ¬ busy s t) ∧ exit libUse s.inst s.handlers = .ub QUEUES STATS := by
  refine ⟨_, rfl, ?_, rfl⟩
  intro t ht
  match t, ht with
  | 0, _ => simp [busy]; rfl
  | 1, _ => simp [busy]; rfl

/-- What holds: if no thread receives a pointer before the destruction of the object is registered,
and all threads have returned, then at the end all objects are destroyed, each once, every
singleton before those its constructor called; and if destructors only use singletons that the
constructor of the same object called, they never use an invalid pointer and create no object. -/
theorem C84_partial {dep use : Nat → List Nat} {as : List Act} {s : State} (h : run dep init as = some s) (hc : NeverEarly dep init as)
    (hr : ∀ t, ¬ busy s t) (hu : ∀ i, ∀ j ∈ use i, j ∈ dep i) :
    ∃ l, exit use s.inst s.handlers = .ok l ∧ l.Nodup ∧ (∀ i, i ∈ l ↔ ∃ k, (i, k) ∈ s.built) ∧
      ∀ i ∈ l, ∀ j ∈ dep i, Before l i j := by
  have I : Inv dep True s := run_inv inv_init (fun _ => hc) h
  have hobj : ∀ j ∈ s.handlers, ∃ k, s.inst j = .obj k := by
    intro j hj
    cases hp : s.inst j with
    | null => exact absurd hp (I.hand j hj)
    | bomb => exact absurd hp (I.bomb j)
    | obj k => exact ⟨k, rfl⟩
  refine ⟨s.handlers, ?_, I.hnd, ?_, ?_⟩
  · exact exit_ok I.hnd hobj (fun a i b hab x hx => I.order trivial a i b hab x (hu i x hx))
  · intro i
    constructor
    · intro hi
      obtain ⟨k, hk⟩ := hobj i hi
      exact ⟨k, (I.built i k).mp hk⟩
    · rintro ⟨k, hk⟩
      rw [← I.built] at hk
      rcases I.regd i (by rw [hk]; simp) with h | ⟨t, fs, ht⟩
      · exact h
      · exact absurd (by rw [busy, ht]; simp) (hr t)
  · intro i hi j hj
    obtain ⟨a, b, hab⟩ := List.append_of_mem hi
    exact ⟨a, b, hab, I.order trivial a i b hab j hj⟩

/-- The condition holds if only one thread uses the singletons. -/
theorem C84_single_partial {dep use : Nat → List Nat} {as : List Act} {s : State} {t : Nat} (h : run dep init as = some s)
    (ht : ∀ a ∈ as, a.thread = t) (hr : ¬ busy s t) (hu : ∀ i, ∀ j ∈ use i, j ∈ dep i) :
    ∃ l, exit use s.inst s.handlers = .ok l ∧ l.Nodup ∧ (∀ i, i ∈ l ↔ ∃ k, (i, k) ∈ s.built) ∧
      ∀ i ∈ l, ∀ j ∈ dep i, Before l i j := by
  refine C84_partial h (single_calm (t := t) inv_init (fun u _ => rfl) ht) ?_ hu
  intro u
  by_cases hut : u = t
  · rw [hut]; exact hr
  · rw [busy, run_threads h (u := u) (fun a ha => by rw [ht a ha]; exact fun e => hut e.symm)]
    simp [init]

/-- The destructors of the library satisfy the condition. -/
theorem C84_library (n : Nat) : ∀ i, ∀ j ∈ libUse i, j ∈ libDep n i := by
  intro i j hj
  unfold libUse at hj
  unfold libDep
  split at hj
  · rename_i h; rw [if_pos h]; exact hj
  · cases hj

/-- A destructor that asks for a singleton that was never created creates it during the exit. -/
theorem C84_creates {use : Nat → List Nat} {inst : Nat → Ptr} {i j : Nat} {is r : List Nat} (hu : use i = j :: r) (hij : j ≠ i) (hn : inst j = .null) :
    exit use inst (i :: is) = .creates i j := by
  have h : set inst i .bomb j = .null := by simp only [set, if_neg hij]; exact hn
  simp [exit, hu, missing, h]

example : exit (fun i => if i = 1 then [0] else []) (set init.inst 1 (.obj 0)) [1] = .creates 1 0 := by decide

example : ∃ s, run (libDep 1) init ([.call 0 MANAGER] ++ List.replicate 31 (.go 0)) = some s ∧ s.stack 0 = [] ∧
    exit libUse s.inst s.handlers = .ok [MANAGER, QUEUES, STATS, CONFIG] := ⟨_, rfl, rfl, rfl⟩

/-! ### C85: creation of singletons never deadlocks -/

/-- If constructors do not depend on each other in a circle: as long as some thread is inside
`get_instance`, some thread can make a step, also after exceptions. -/
theorem C85_progress {dep : Nat → List Nat} (ha : Acyclic dep) {s : State} (h : Reach dep s) {t : Nat} (ht : busy s t) :
    ∃ u, (step dep s (.go u)).isSome := by
  obtain ⟨rank, hr⟩ := ha
  have I := reach_inv h
  cases hs : step dep s (.go t) with
  | some s' => exact ⟨t, by rw [hs]; rfl⟩
  | none =>
    obtain ⟨i, fs, u, h1, h2⟩ := stuck ht hs
    obtain ⟨v, hv⟩ := no_deadlock hr I (rank i) t i fs h1 (Nat.le_refl _)
    exact ⟨v, Option.isSome_iff_ne_none.mpr hv⟩

/-- And only finitely many steps are possible without new calls: all calls return. -/
theorem C85_ends {dep : Nat → List Nat} (ha : Acyclic dep) {s : State} (h : Reach dep s) :
    ∃ n, ∀ as s', (∀ a ∈ as, ∃ t, a = .go t) → run dep s as = some s' → as.length ≤ n := by
  obtain ⟨rank, hr⟩ := ha
  obtain ⟨bs, hb⟩ := h
  have hc : ∀ i, cost dep (rank i) i = 6 + ((dep i).map (fun j => cost dep (rank j) j + 1)).sum := by
    intro i
    rw [cost_fuel hr (rank i) (rank i + 1) i (Nat.le_refl _) (by omega)]
    simp only [cost]
    congr 2
    apply List.map_congr_left
    intro j hj
    have := hr i j hj
    rw [cost_fuel hr (rank i) (rank j) j (by omega) (Nat.le_refl _)]
  have hT : ∀ t, s.stack t ≠ [] → t ∈ List.range ((bs.map Act.thread).sum + 1) := by
    intro t ht
    rw [List.mem_range]
    apply Classical.byContradiction
    intro hn
    apply ht
    rw [run_threads hb (u := t) (fun a ha e => hn (by have := le_sum (List.mem_map.mpr ⟨a, ha, e⟩); omega))]
    rfl
  exact ⟨_, fun as s' hg hr' => bounded (fun i => cost dep (rank i) i) hc List.nodup_range hT hg hr'⟩

/-- The constructors of the library do not depend on each other in a circle. -/
theorem C85_library (n : Nat) : Acyclic (libDep n) := by
  refine ⟨fun i => i, ?_⟩
  intro i j hj
  unfold libDep at hj
  split at hj
  · rename_i h; rw [List.mem_singleton] at hj; rw [h, hj]; decide
  · split at hj
    · rename_i h
      rw [List.mem_cons] at hj
      rw [h]
      rcases hj with rfl | hj
      · decide
      · rw [List.mem_flatten] at hj
        obtain ⟨l, h1, h2⟩ := hj
        rw [List.eq_of_mem_replicate h1] at h2
        simp only [List.mem_cons, List.not_mem_nil, or_false] at h2
        rcases h2 with rfl | rfl | rfl <;> decide
    · cases hj

/-- The condition is needed: a constructor that asks for its own singleton waits for ever. -/
theorem C85_circle : ∃ s, run (fun _ => [0]) init [.call 0 0, .go 0, .go 0, .go 0, .go 0, .go 0] = some s ∧ busy s 0 ∧
    step (fun _ => [0]) s (.go 0) = none := ⟨_, rfl, by simp [busy]; decide, rfl⟩

example : ∃ s, run (libDep 1) init [.call 0 STATS, .call 1 STATS, .go 0, .go 1, .go 1] = some s ∧ busy s 0 ∧ (step (libDep 1) s (.go 0)).isNone :=
  ⟨_, rfl, by simp [busy]; decide, rfl⟩

end Foxxll.Single
