import Verif.Proofs.ConfigQuery
/-
C145: queries of the configuration.
-/
namespace Foxxll.ConfigQuery
open Foxxll.Config

/-- An environment and a configuration file with two disks of 3 and 4 MiB. -/
def qEnv : Env := { pid := 1, expand := id, units := fun s => if s = "3".toList then some 3145728 else if s = "4".toList then some 4194304 else none }
/-- The lines of the file. -/
def qFile : Option (Option (List Str)) := some (some ["disk=a,3,syscall".toList, "disk=b,4,syscall".toList])

/-- The property fails: the queries declared `const` do not initialise the configuration.  Asked first, they answer as if there was no disk, access an element of an empty
vector, or fail an assertion; asked after `disks_number`, they answer rightly. -/
theorem C145_false (g m : Nat) :
    (∃ c, runQueries false qEnv qFile (construct g m) [] [.ask .totalSize] = .ok [.num 0] c) ∧
    runQueries false qEnv qFile (construct g m) [] [.ask (.diskSize 0)] = .ub ∧
    runQueries true qEnv qFile (construct g m) [] [.ask .totalSize] = .assertFail ∧
    ∃ c, runQueries true qEnv qFile (construct g m) [] [.ask .disksNumber, .ask .totalSize, .ask (.diskSize 0)] = .ok [.num 2, .num 7340032, .num 3145728] c :=
  ⟨⟨_, rfl⟩, rfl, rfl, ⟨_, rfl⟩⟩

/-- The number of a disk that does not exist is noticed by `disk` only, and only if assertions are compiled in. -/
theorem C145_index_false : runQueries true qEnv qFile (construct 0 0) [] [.ask .disksNumber, .ask (.diskPath 2)] = .ub ∧
    runQueries true qEnv qFile (construct 0 0) [] [.ask (.disk 2)] = .assertFail ∧ runQueries false qEnv qFile (construct 0 0) [] [.ask (.disk 2)] = .ub := ⟨rfl, rfl, rfl⟩

/-- Sizes of disks may add up to 2^64 or more; then `total_size` is less than the size of a single disk. -/
theorem C145_sum_false : ∃ c, runQueries true qEnv qFile (construct 0 0) []
    [.add { size := 2 ^ 63 + 1 }, .add { size := 2 ^ 63 }, .ask (.disk 0), .ask .totalSize] = .ok [.whole { size := 2 ^ 63 + 1 }, .num 1] c := ⟨_, rfl⟩

/-- What holds: after the initialisation every program that names existing disks only gets the right answers, with and without assertions, if the sizes stay below 2^64 and
the number of disks below 2^32. -/
theorem C145_partial (debug : Bool) (env : Env) (found : Option (Option (List Str))) {c : Cfg} (h : c.isInit = true) (l : List COp) (hv : Valid c.disks.length l)
    (hs : Small c.disks l) (hf : c.firstFlash ≤ c.disks.length) :
    ∃ as c', runQueries debug env found c [] l = .ok as c' ∧ Means c.disks c.firstFlash l as c'.disks := by
  obtain ⟨as, c', e1, e2, _⟩ := run_done (debug := debug) (env := env) (found := found) h l [] hv hs (Nat.lt_of_le_of_lt (Nat.add_le_add_right hf _) hs.2)
  exact ⟨as, c', e1, e2⟩

/-- A configuration is initialised by the first call of `disks_number` or `disk` that returns. -/
theorem C145_first {debug : Bool} {env : Env} {found : Option (Option (List Str))} {c c' : Cfg} {a : Answer} {q : Query} (hq : q = .disksNumber ∨ ∃ i, q = .disk i)
    (h : query debug env found c q = .ok a c') : c'.isInit = true ∧ init env c found = (c', false) := by
  have key : ∀ k : Cfg → QRes, (∀ x a y, k x = .ok a y → y = x) → checked env found c k = .ok a c' → c'.isInit = true ∧ init env c found = (c', false) := by
    intro k hk h
    unfold checked at h
    dsimp only at h
    split at h
    · cases h
    · rename_i hr
      have e := hk _ _ _ h
      have : init env c found = (c', false) := by rw [e]; exact Prod.ext rfl (by simpa using hr)
      exact ⟨init_ok this, this⟩
  rcases hq with rfl | ⟨i, rfl⟩
  · exact key _ (fun x a y e => by injection e with _ e; exact e.symm) h
  · refine key (fun c => if debug = true ∧ c.disks.length ≤ i then .assertFail else elem c i .whole) (fun x a y e => ?_) h
    split at e
    · cases e
    · unfold elem at e
      split at e
      · injection e with _ e; exact e.symm
      · cases e

/-- Naming a disk that does not exist is always undefined or, with assertions, possibly a failed assertion: such a program never gets an answer to it. -/
theorem C145_index (debug : Bool) (env : Env) (found : Option (Option (List Str))) {c : Cfg} (h : c.isInit = true) (l : List COp) (hs : Small c.disks l)
    (hv : ¬ Valid c.disks.length l) : runQueries debug env found c [] l = .ub ∨ (debug = true ∧ runQueries debug env found c [] l = .assertFail) :=
  run_bad h l [] hv hs

/-- Before the initialisation: with assertions no `const` query returns; without them it is about the disks that were added so far, and leaves the configuration as it is. -/
theorem C145_before (env : Env) (found : Option (Option (List Str))) {c : Cfg} (h : c.isInit = false) {q : Query} (hq : q ≠ .disksNumber ∧ ∀ i, q ≠ .disk i) :
    query true env found c q = .assertFail ∧
    (q = .totalSize → query false env found c q = .ok (.num ((c.disks.map (·.size)).sum % 2 ^ 64)) c) ∧
    (c.disks = [] → ∀ i, q = .diskPath i ∨ q = .diskSize i ∨ q = .diskIoImpl i → query false env found c q = .ub) := by
  have ha : ∀ k, asserted true c k = .assertFail := fun k => by unfold asserted; simp [h]
  have hb : ∀ k, asserted false c k = k := fun k => by unfold asserted; simp
  refine ⟨?_, ?_, ?_⟩
  · cases q with
    | disksNumber => exact absurd rfl hq.1
    | disk i => exact absurd rfl (hq.2 i)
    | _ => exact ha _
  · rintro rfl
    refine (hb _).trans ?_
    rw [totalLoop_eq _ _ (by decide), Nat.zero_add]
  · rintro hd i (rfl | rfl | rfl) <;> exact (hb _).trans (elem_none (by rw [hd]; exact Nat.zero_le _) _)

/-- `total_size` in general: the sum modulo 2^64. -/
theorem C145_total (debug : Bool) (env : Env) (found : Option (Option (List Str))) {c : Cfg} (h : c.isInit = true) :
    query debug env found c .totalSize = .ok (.num ((c.disks.map (·.size)).sum % 2 ^ 64)) c := by
  refine (asserted_done h _).trans ?_
  rw [totalLoop_eq _ _ (by decide), Nat.zero_add]

/-- A program that asks, changes and adds. -/
example : ∃ c, (∃ as, runQueries true qEnv qFile (construct 0 0) [] [.ask .disksNumber] = .ok as c) ∧ c.isInit = true ∧ c.firstFlash ≤ c.disks.length ∧
    Valid c.disks.length [.change 1 { size := 5 }, .add { size := 6 }, .ask .totalSize, .ask .flashRange, .ask (.diskPath 0)] ∧
    Small c.disks [.change 1 { size := 5 }, .add { size := 6 }, .ask .totalSize, .ask .flashRange, .ask (.diskPath 0)] ∧
    ∃ c', runQueries true qEnv qFile c [] [.change 1 { size := 5 }, .add { size := 6 }, .ask .totalSize, .ask .flashRange, .ask (.diskPath 0)] =
      .ok [.num 3145739, .range (3, 3), .text "a".toList] c' :=
  ⟨_, ⟨_, rfl⟩, rfl, by decide, ⟨by decide, by simp [Query.Bad, Valid]⟩, ⟨by decide, by decide⟩, _, rfl⟩

end Foxxll.ConfigQuery
