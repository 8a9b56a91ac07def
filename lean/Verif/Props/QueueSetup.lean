import Verif.Proofs.QueueSetup
/-
C141: queues that could not be created.
-/
namespace Foxxll.QSetup
open Foxxll

def aioFile : DiskQ.File := { aio := true, queue := -2, length := 64 }
def plainFile : DiskQ.File := { aio := false, queue := 0 }

/-- The property fails if the entry of the map comes first, which the standard permits: the first creation throws, the second returns without having created
anything, and the request uses a null pointer.  The same happens to a program that constructs its block manager again after an exception, and to a change of the
priority. -/
theorem C141_false : run true {} [(.noContext, .op (.make aioFile)), (.ok, .op (.make aioFile)), (.ok, .op (.add aioFile 1))] = .ub ∧
    run true {} [(.noThread, .op (.add plainFile 1)), (.ok, .op (.add plainFile 1))] = .ub ∧
    (∃ s s', openAll true {} [(.ok, plainFile), (.noContext, aioFile)] = .threw s ∧ openAll true s [(.ok, plainFile), (.ok, aioFile)] = .ok s' ∧
      addRequest true .ok s' aioFile 1 = .ub) ∧
    run true {} [(.noThread, .op (.make plainFile)), (.ok, .priority)] = .ub :=
  ⟨rfl, rfl, ⟨_, _, rfl, rfl, rfl⟩, rfl⟩

/-- In whatever order: an I/O context of the kernel is lost for each `linuxaio_queue` whose first thread could not be started, and the program is terminated if it was the
second one. -/
theorem C141_lost_false (lhs : Bool) : (∃ s, run lhs {} [(.noThread, .op (.make aioFile))] = .ok s ∧ s.lost = 1) ∧
    run lhs {} [(.noSecond, .op (.make aioFile))] = .terminated := by
  cases lhs <;> exact ⟨⟨_, rfl, rfl⟩, rfl⟩

/-- What holds if the queue is created first: calls that throw leave the map as it was, so that after any calls the queues are those that the calls that returned would have
given without failures (C81). -/
theorem C141_partial {l : List (Os × Call)} {s : St} (h : run false {} l = .ok s) :
    Sound s.m ∧ DiskQ.run DiskQ.empty (returned false {} l) = .ok (view s.m) := run_rhs sound_nil h

example : ∃ s, run false {} [(.noContext, .op (.make aioFile)), (.noThread, .op (.add plainFile 1)), (.ok, .op (.make aioFile)), (.ok, .op (.add aioFile 1)), (.ok, .priority)] = .ok s ∧
    view s.m (-2) = some { aio := true, length := 64, reqs := [1] } ∧ view s.m 0 = none := ⟨_, rfl, rfl, rfl⟩

/-- Then undefined behaviour comes from a call that has it without any failure. -/
theorem C141_ub_partial {l : List (Os × Call)} (h : run false {} l = .ub) : ∃ l1 os o l2 s, l = l1 ++ (os, .op o) :: l2 ∧ run false {} l1 = .ok s ∧
    DiskQ.run DiskQ.empty (returned false {} l1) = .ok (view s.m) ∧ DiskQ.step (view s.m) o = .ub := by
  obtain ⟨l1, os, o, l2, s, h1, h2, h3⟩ := run_bad sound_nil h
  exact ⟨l1, os, o, l2, s, h1, h2, (run_rhs sound_nil h2).2, h3⟩

example : run false {} [(.noContext, .op (.make aioFile)), (.ok, .op (.cancel aioFile 1))] = .ub := rfl

/-- If the entry comes first, a null pointer is there exactly for the queues whose creation threw at some time, -/
theorem C141_null {l : List (Os × Call)} {s : St} {i : Int} (h : run true {} l = .ok s) : find s.m i = some none ↔
    ∃ l1 os c l2 s1 s2 f, l = l1 ++ (os, c) :: l2 ∧ run true {} l1 = .ok s1 ∧ step true s1 os c = .threw s2 ∧ c.file = some f ∧ f.queue = i := by
  rw [run_null h]
  constructor
  · rintro (h | h)
    · cases h
    · exact h
  · exact .inr

example : ∃ s, run true {} [(.noThread, .op (.make plainFile)), (.ok, .op (.make aioFile)), (.ok, .op (.make plainFile))] = .ok s ∧ find s.m 0 = some none ∧
    find s.m (-2) = some (some (DiskQ.fresh aioFile)) := ⟨_, rfl, rfl, rfl⟩

/-- and stays whatever is called afterwards, while requests to that queue, cancellations in it and changes of the priority use it and `make_queue` returns. -/
theorem C141_forever {s s' : St} {l : List (Os × Call)} {i : Int} (hn : find s.m i = some none) (h : run true s l = .ok s') (os : Os) :
    step true s' os .priority = .ub ∧ ∀ f : DiskQ.File, f.queue = i → ∀ r, step true s' os (.op (.add f r)) = .ub ∧ step true s' os (.op (.cancel f r)) = .ub ∧
      step true s' os (.op (.make f)) = .ok s' := by
  have hk := run_keeps hn h
  refine ⟨priority_null hk, ?_⟩
  rintro f rfl r
  refine ⟨?_, ?_, ?_⟩ <;> simp only [step, addRequest, cancel, makeQueue, give, hk]

example : ∃ s s', run true {} [(.noThread, .op (.make plainFile))] = .ok s ∧ find s.m 0 = some none ∧ run true s [(.ok, .op (.make aioFile)), (.ok, .op (.add aioFile 3))] = .ok s' :=
  ⟨_, _, rfl, rfl, rfl⟩

/-- A block manager whose construction threw in `make_queue` can be constructed again in whatever order; if the entry comes first, one of its files then has a null pointer, -/
theorem C141_manager {s s' : St} {l : List (Os × DiskQ.File)} (h : openAll true s l = .threw s') : ∃ s'' f, openAll true s' (l.map fun x => (.ok, x.2)) = .ok s'' ∧
    f ∈ l.map (·.2) ∧ ∀ os r, addRequest true os s'' f r = .ub := by
  obtain ⟨s'', h2⟩ := openAll_ok (lhs := true) s' (l.map (·.2))
  rw [List.map_map] at h2
  obtain ⟨x, hx, h3, _⟩ := openAll_threw h
  refine ⟨s'', x.2, h2, List.mem_map_of_mem hx, ?_⟩
  intro os r
  simp only [addRequest, give, openAll_keeps (h3 rfl) h2]

/-- and if the queue is created first, none has. -/
theorem C141_manager_partial {s s' : St} {l : List (Os × DiskQ.File)} (hS : Sound s.m) (h : openAll false s l = .threw s' ∨ openAll false s l = .ok s') : Sound s'.m := by
  induction l generalizing s with
  | nil => rcases h with h | h <;> simp [openAll] at h; subst h; exact hS
  | cons x l ih =>
    obtain ⟨os, f⟩ := x
    have hs := step_rhs hS os (.op (.make f))
    have e : step false s os (.op (.make f)) = makeQueue false os s f := rfl
    rw [e] at hs
    simp only [openAll] at h
    cases hm : makeQueue false os s f with
    | ok s1 => simp only [hm] at h hs; exact ih hs.1 h
    | threw s1 =>
      simp only [hm, reduceCtorEq, or_false, Res.threw.injEq] at h hs
      subst h; rw [hs]; exact hS
    | _ => simp [hm] at h

example : ∃ s, openAll true {} [(.ok, plainFile), (.noContext, aioFile)] = .threw s := ⟨_, rfl⟩
example : ∃ s, openAll false {} [(.ok, plainFile), (.noContext, aioFile)] = .threw s ∧ Sound s.m :=
  ⟨_, rfl, C141_manager_partial (s := {}) sound_nil (.inl (show openAll false {} [(.ok, plainFile), (.noContext, aioFile)] = _ from rfl))⟩

/-- When a call throws or the program is terminated: only for files whose queue has no entry, if the system refuses what that kind of queue needs; and what is lost. -/
theorem C141_when (lhs : Bool) (s : St) (os : Os) (f : DiskQ.File) (r : Nat) (c : Call) (hc : c = .op (.make f) ∨ c = .op (.add f r)) :
    (step lhs s os c = .terminated ↔ find s.m f.queue = none ∧ f.aio = true ∧ os = .noSecond) ∧
    ((∃ s', step lhs s os c = .threw s') ↔ find s.m f.queue = none ∧ (os = .noThread ∨ f.aio = true ∧ os = .noContext)) ∧
    (∀ s', step lhs s os c = .threw s' → s'.lost = s.lost + if f.aio = true ∧ os = .noThread then 1 else 0) := by
  have hcr : (∃ s', create lhs os s f = .threw s') ↔ (os = .noThread ∨ f.aio = true ∧ os = .noContext) := by
    unfold create
    cases os <;> cases f.aio <;> simp [construct]
  rcases hc with rfl | rfl
  · simp only [step, makeQueue]
    cases hf : find s.m f.queue with
    | some y => simp
    | none =>
      simp only [true_and]
      exact ⟨create_rest.2.2, hcr, fun s' h => (create_threw h).2⟩
  · simp only [step, addRequest]
    cases hf : find s.m f.queue with
    | some y => exact ⟨⟨fun h => absurd h (give_threw (s' := s)).2, (fun h => by simp at h)⟩, ⟨fun ⟨s', h⟩ => absurd h give_threw.1, (fun h => by simp at h)⟩, fun s' h => absurd h give_threw.1⟩
    | none =>
      simp only [true_and]
      rw [← hcr, ← (create_rest (lhs := lhs) (os := os) (s := s) (f := f)).2.2]
      cases he : create lhs os s f with
      | ok s1 => simp [(give_threw (s' := s)).2, give_threw.1]
      | threw s1 =>
        simp only [reduceCtorEq, Res.threw.injEq, forall_eq', true_and]
        exact (create_threw he).2
      | _ => simp

example : find ({} : St).m aioFile.queue = none ∧ aioFile.aio = true := ⟨rfl, rfl⟩

end Foxxll.QSetup
