/-
Properties C135 to C137 of the tools: their buffers, their exit codes, and the version numbers.
-/
import Verif.Proofs.Tools

namespace Foxxll.Tools

/-! ### C135: buffers of the tools

In full: while a request of a benchmark is in flight, its buffer is not freed and no other request in flight uses it. -/

/-- Two requests, the first of which fails: the tool is behind `delete` while the second one is in flight. -/
def failFirst : List Act :=
  [.client false, .client false, .client false, .serve 0 true, .client false, .client false]

/-- **C135 fails** in `benchmark_disks`, `benchmark_files` and `benchmark_disks_random`: the first request of a batch ends with an error, the
exception leaves `wait_all`, and the buffers are freed while the second one is in flight; it is served with the freed memory. -/
theorem C135_false_freed : ∀ t, t = disksTool ∨ t = randomTool → ∃ as s a s', Run t [2] as s ∧ s.pc = .freed ∧ (1, t.buf 1) ∈ s.flight ∧
    step t s a = some s' ∧ s'.touched = true := by
  rintro t (rfl | rfl) <;>
    exact ⟨_, _, .serve 1 false, _, play_run (as := failFirst) Run.start rfl, rfl, List.mem_cons_self, rfl, rfl⟩

/-- **C135 fails** in `benchmark_disks_random` without any failure: all requests of a batch use the same buffer. -/
theorem C135_false_shared : ∃ as s, Run randomTool [2] as s ∧ (∀ a ∈ as, a = .client false) ∧ (0, 0) ∈ s.flight ∧ (1, 0) ∈ s.flight :=
  ⟨_, _, play_run (as := [.client false, .client false]) Run.start rfl, by decide, List.mem_cons_self, List.mem_cons_of_mem _ List.mem_cons_self⟩

/-- **C135, partial**: if no request ends with an error and no call throws, the buffers are freed after all requests were served, for all numbers
and sizes of batches and all orders of service.  Missing: failures, see `C135_false_freed`. -/
theorem C135_partial {t : Tool} {l : List Nat} {as : List Act} {s : St} (h : Run t l as s)
    (hc : Act.client true ∉ as) (hs : ∀ i, Act.serve i true ∉ as) : (s.pc = .freed → s.flight = []) ∧ s.touched = false := by
  have key : ∀ {as' : List Act} {s0 : St}, Run t l as' s0 → Act.client true ∉ as' → (∀ i, Act.serve i true ∉ as') →
      s0.pc = .freed → s0.flight = [] := by
    intro as' s0 hr hc' hs' hf
    obtain ⟨h1, _⟩ := run_after hr (.inr (.inl hf))
    rcases h1 with h1 | h1 | ⟨i, hi, _⟩
    · exact h1
    · exact absurd h1 hc'
    · rw [(run_clean hr hc' hs').1] at hi
      cases hi
  refine ⟨key h hc hs, ?_⟩
  cases ht : s.touched with
  | false => rfl
  | true =>
    obtain ⟨as', s0, hr, hpre, hf, hne⟩ := run_touched h ht
    exact absurd (key hr (fun c => hc (hpre.subset c)) (fun i c => hs i (hpre.subset c)) hf) hne

/-- Two batches that end well. -/
example : ∃ as s, Run disksTool [2, 1] as s ∧ s.pc = .freed ∧ s.next = 3 ∧ Act.client true ∉ as ∧ ∀ i, Act.serve i true ∉ as :=
  ⟨_, _, play_run (as := [.client false, .client false, .client false, .serve 1 false, .serve 0 false, .client false, .client false, .client false,
      .client false, .client false, .serve 2 false, .client false, .client false, .client false]) Run.start rfl, rfl, rfl, by decide, by
        intro i hi
        simp at hi⟩

/-- **C135, other part**: what is in flight when the buffers are freed are requests of the last batch, submitted after one that failed
(or a call threw). -/
theorem C135_after {t : Tool} {l : List Nat} {as : List Act} {s : St} (h : Run t l as s) (hf : s.pc = .freed) (hne : s.flight ≠ []) :
    (∀ p ∈ s.flight, p.1 ∈ s.cur) ∧ (Act.client true ∈ as ∨ ∃ i ∈ s.failed, ∀ p ∈ s.flight, i < p.1) := by
  refine ⟨?_, ?_⟩
  · intro p hp
    obtain ⟨j, hj, _⟩ := (run_inv h).own p hp
    exact List.mem_of_getElem? hj
  · obtain ⟨h1, _⟩ := run_after h (.inr (.inl hf))
    rcases h1 with h1 | h1
    · exact absurd h1 hne
    · exact h1

/-- The hypotheses are met in the run of `C135_false_freed`. -/
example : ∃ as s, Run disksTool [2] as s ∧ s.pc = .freed ∧ s.flight ≠ [] :=
  ⟨_, _, play_run (as := failFirst) Run.start rfl, rfl, by decide⟩

/-- **C135, other part**: `create_files` has no handler: its buffers are never freed too early, whatever fails. -/
theorem C135_create {l : List Nat} {as : List Act} {s : St} (h : Run createTool l as s) : (s.pc = .freed → s.flight = []) ∧ s.touched = false := by
  have key : ∀ {as' : List Act} {s0 : St}, Run createTool l as' s0 → s0.pc = .freed → s0.flight = [] :=
    fun hr hf => (run_after hr (.inr (.inl hf))).2 hf rfl
  refine ⟨key h, ?_⟩
  cases ht : s.touched with
  | false => rfl
  | true =>
    obtain ⟨as', s0, hr, _, hf, hne⟩ := run_touched h ht
    exact absurd (key hr hf) hne

/-- There the process ends with the first exception. -/
example : ∃ as s, Run createTool [2] as s ∧ s.pc = .terminated ∧ s.flight = [(1, 1)] :=
  ⟨_, _, play_run (as := failFirst) Run.start rfl, rfl, rfl⟩

/-- **C135, other part**: if the requests of a batch have buffers of their own, no two requests in flight share one, also between batches and after
failures. -/
theorem C135_apart {t : Tool} {l : List Nat} {as : List Act} {s : St} (h : Run t l as s) (hb : ∀ i j, t.buf i = t.buf j → i = j) :
    (s.flight.map (·.2)).Nodup :=
  bufs_nodup (run_inv h) hb

/-- Two requests in flight with buffers 0 and 1. -/
example : (∀ i j, disksTool.buf i = disksTool.buf j → i = j) ∧ ∃ as s, Run disksTool [2] as s ∧ s.flight.map (·.2) = [0, 1] :=
  ⟨fun _ _ h => h, _, _, play_run (as := [.client false, .client false]) Run.start rfl, rfl⟩

/-- **C135, other part**: a batch begins when all requests before it were served. -/
theorem C135_batch {t : Tool} {l : List Nat} {as : List Act} {s : St} (h : Run t l as s) (hp : s.pc = .submit 0) : s.flight = [] :=
  submit_nil (run_inv h) hp

/-- The second batch. -/
example : ∃ as s, Run disksTool [1, 1] as s ∧ s.pc = .submit 0 ∧ s.next = 1 ∧ s.batches = [1] :=
  ⟨_, _, play_run (as := [.client false, .client false, .serve 0 false, .client false, .client false]) Run.start rfl, rfl, rfl, rfl⟩

/-! ### C136: exit codes of the tools

In full: `foxxll_tool` returns 0 only if the subtool that was asked for was run, and all its requests and checks succeeded. -/

/-- **C136 fails** for an unknown subtool: the usage is printed, and 0 is returned, whatever the subtools do. -/
theorem C136_false_unknown : ∃ argv : List (List Char), (∀ n ∈ subtools, argv[1]? ≠ some n.toList) ∧ ∀ run, mainExit run argv = .code 0 :=
  ⟨["foxxll_tool".toList, "create_file".toList], by decide, fun _ => rfl⟩

/-- **C136 fails** after an exception: the benchmarks print its message and return 0. -/
theorem C136_false_error : disksExit (some "striping") true = .code 0 ∧ filesExit true true true false = .code 0 :=
  ⟨rfl, rfl⟩

/-- **C136, partial**: a known subtool is called, by itself, with all further arguments, and its exit code is returned.
Missing: unknown subtools and the errors that the subtools do not report, see `C136_false_unknown`, `C136_false_error`. -/
theorem C136_partial (run : String → List (List Char) → Exit) (a0 : List Char) (n : String) (rest : List (List Char)) (hn : n ∈ subtools) :
    ∃ first : List Char, first.length ≤ 255 ∧ first <+: a0 ++ ' ' :: n.toList ∧
      mainExit run (a0 :: n.toList :: rest) = run n (first :: rest) := by
  refine ⟨progsub a0 n.toList, ?_, ?_, ?_⟩
  · unfold progsub
    rw [List.length_take]
    omega
  · unfold progsub
    rw [List.append_assoc]
    exact List.take_prefix _ _
  · unfold mainExit choose
    dsimp only
    rw [find_known hn]

example : "benchmark_files" ∈ subtools := by decide

/-- **C136, other part**: a subtool is only called by its name. -/
theorem C136_called {argv args : List (List Char)} {n : String} (h : choose argv = .call n args) :
    n ∈ subtools ∧ argv[1]? = some n.toList ∧ args.tail = argv.drop 2 := by
  unfold choose at h
  split at h
  · rename_i a0 a1 rest
    split at h
    · rename_i m hm
      injection h with h1 h2
      subst h1 h2
      obtain ⟨hin, he⟩ := find_sub hm
      exact ⟨hin, by rw [he]; rfl, rfl⟩
    · cases h
  · cases h

example : choose ["./foxxll_tool".toList, "info".toList] = .call "info" ["./foxxll_tool info".toList] := by decide

/-- **C136, other part**: command lines that are not accepted, unknown strategies, wrong contents and failures of `create_files` give an exit
code other than 0 (or end the process). -/
theorem C136_reported : (∀ c, disksExit none c ≠ .code 0) ∧ (∀ a c, a ≠ "" → a ∉ strategies → disksExit (some a) c ≠ .code 0) ∧
    (∀ o c v, filesExit false o c v ≠ .code 0) ∧ (∀ c v, filesExit true false c v ≠ .code 0) ∧ (∀ a o c, filesExit a o c true ≠ .code 0) ∧
    (∀ t, createExit false t ≠ .code 0) ∧ (∀ a, createExit a true ≠ .code 0) := by
  refine ⟨by decide, ?_, by decide, by decide, by decide, by decide, by decide⟩
  intro a c hne hs
  unfold disksExit
  dsimp only
  rw [if_pos ⟨fun h => hne (String.length_eq_zero_iff.1 h), hs⟩]
  decide

example : disksExit (some "cyclic") false = .code (-1) ∧ disksExit (some "striping") false = .code 0 ∧ filesExit true true false true = .code 1 := by
  decide

/-! ### C137: version numbers

In full: the check tells whether headers and library have the same version, and the integer version numbers are ordered as the versions are. -/

/-- Order of versions: the first component that differs decides. -/
def Earlier (a b : Version) : Prop :=
  a.major < b.major ∨ (a.major = b.major ∧ (a.minor < b.minor ∨ (a.minor = b.minor ∧ a.patch < b.patch)))

/-- **C137 fails** beyond 99: two versions with the same integer, the first of them next to the current one (1.4.99). -/
theorem C137_false : ∃ a b : Version, Earlier a b ∧ a.integer = b.integer :=
  ⟨⟨1, 4, 100⟩, ⟨1, 5, 0⟩, .inr ⟨rfl, .inl (by decide)⟩, rfl⟩

/-- **C137, partial**: integer version numbers have the order of the versions, and determine them, while the second and the third component are below
100.  Missing: larger components. -/
theorem C137_partial {a b : Version} (ha : a.minor < 100 ∧ a.patch < 100) (hb : b.minor < 100 ∧ b.patch < 100) :
    (Earlier a b ↔ a.integer < b.integer) ∧ (a.integer = b.integer ↔ a = b) := by
  unfold Earlier Version.integer
  cases a; cases b
  simp only [Version.mk.injEq] at *
  constructor <;> omega

example : (⟨1, 4, 99⟩ : Version).minor < 100 ∧ Earlier ⟨1, 4, 99⟩ ⟨1, 5, 0⟩ ∧ (⟨1, 4, 99⟩ : Version).integer = 10499 :=
  ⟨by decide, .inr ⟨rfl, .inl (by decide)⟩, rfl⟩

/-- **C137, check**: it returns 0 if and only if the versions are the same, otherwise the number of the first component that differs; the program is
ended if and only if they differ. -/
theorem C137_check (a b : Version) : (check a b = 0 ↔ a = b) ∧ (dies a b = true ↔ a ≠ b) ∧
    (check a b = 1 ↔ a.major ≠ b.major) ∧ (check a b = 2 ↔ a.major = b.major ∧ a.minor ≠ b.minor) ∧
    (check a b = 3 ↔ a.major = b.major ∧ a.minor = b.minor ∧ a.patch ≠ b.patch) := by
  refine ⟨check_zero, ?_, ?_, ?_, ?_⟩
  · unfold dies
    rw [bne_iff_ne]
    exact not_congr check_zero
  all_goals
    unfold check
    split
    · simp_all
    · split
      · simp_all
      · split <;> simp_all

example : check ⟨1, 4, 1⟩ ⟨1, 4, 99⟩ = 3 ∧ check ⟨1, 5, 1⟩ ⟨1, 4, 99⟩ = 2 := by decide

end Foxxll.Tools
