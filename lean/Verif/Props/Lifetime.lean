import Verif.Proofs.LifetimeStep
/-
Property C116: lifetime of requests and their files.

Full statement: in every execution of a client that deletes a file only when its requests are finished, nobody uses a deleted request, a null pointer or a
deleted file, and no assertion fails; a request object exists as long as there are references to it and no longer; a file
counts exactly its unfinished requests and does not warn when it is deleted.
-/
namespace Foxxll.Life

/-- **C116, false**: `cancel` tests `file_` and then uses it again (request_with_state.cpp:51-55); between, the worker may complete the request and
set it to null (request.cpp:99-105).  The client is legal: it holds a pointer, no file is deleted. -/
theorem C116_false : ∃ fo s op, Reach fo s ∧ Legal fo s op ∧ step s op = .null := by
  have h := Reach.next (fileOf := fun _ => 0) (.work 1) (.next (.work 1) (.next (.work 1) (.next (.work 1) (.next (.work 1) (.next (.take 1 0) (.next (.cancel 0 0) (.next (.submit 0 0 0 false false)
      .start ⟨rfl, rfl, rfl⟩ rfl) trivial rfl) trivial rfl) trivial rfl) trivial rfl) trivial rfl) trivial rfl) trivial rfl
  exact ⟨_, _, .work 0, h, trivial, rfl⟩

/-- **C116, false**: `io_type` of a finished request (request.cpp:94-97, serving_request.cpp:65-68). -/
theorem C116_false_type : ∃ fo s op, Reach fo s ∧ Legal fo s op ∧ step s op = .null ∧ ∃ t r, op = .ioType t r ∧ r ∈ s.waited := by
  have h := Reach.next (fileOf := fun _ => 0) (.wait 0 0) (.next (.work 1) (.next (.work 1) (.next (.work 1) (.next (.work 1) (.next (.work 1) (.next (.work 1) (.next (.take 1 0) (.next (.submit 0 0 0 false false)
      .start ⟨rfl, rfl, rfl⟩ rfl) trivial rfl) trivial rfl) trivial rfl) trivial rfl) trivial rfl) trivial rfl) trivial rfl) trivial rfl
  exact ⟨_, _, .ioType 0 0, h, trivial, rfl, 0, 0, rfl, List.mem_singleton.2 rfl⟩

/-- **C116, false** if requests are finished in the sense of `poll` (also `wait_any`, `poll_any`): the worker still uses the file
(request_with_state.cpp:68-75, 82-88). -/
theorem C116_false_poll : ∃ ops s, run init ops = .ok s ∧ s.ids = [0] ∧ 0 ∈ s.polled ∧ run s [.delFile 0, .work 1, .work 1, .work 1] = .fileGone := by
  refine ⟨[.submit 0 0 0 false false, .take 1 0, .work 1, .work 1, .poll 0 0 true], _, rfl, rfl, ?_, rfl⟩
  exact List.mem_singleton.2 rfl

/-- **C116, false** for a queue that is not running: `add_request` throws, and the destructor of the request finds a state that it
excludes (1q.cpp:66-67, request_with_state.cpp:31). -/
theorem C116_false_refused : ∀ t r f aio, step init (.submit t r f aio true) = .assertFail := by
  intro t r f aio
  simp [step, submit, St.rmPtr, St.req, upd, init, Holder.req]

/-- **C116, false** for linuxaio: if the client gives up its pointer first, the object stays forever, since `dec_reference` does not
delete (linuxaio_queue.cpp:258-259; the comment says it may). -/
theorem C116_false_leak : ∃ fo s, Reach fo s ∧ s.ids = [0] ∧ s.ptrs = [] ∧ (∀ t, s.thr t = .idle) ∧ s.flying = [] ∧ (s.reqs 0).alive = true := by
  have h := Reach.next (fileOf := fun _ => 0) (.work 2) (.next (.work 2) (.next (.work 2) (.next (.work 2) (.next (.work 2) (.next (.work 2) (.next (.event 2 0) (.next (.drop 0 0) (.next (.work 1) (.next (.work 1) (.next (.take 1 0)
      (.next (.submit 0 0 0 true false) .start ⟨rfl, rfl, rfl⟩ rfl) trivial rfl) trivial rfl) trivial rfl) trivial rfl) trivial rfl) trivial rfl) trivial rfl) trivial rfl) trivial rfl) trivial rfl) trivial rfl
  refine ⟨_, _, h, rfl, rfl, ?_, rfl, rfl⟩
  intro t
  simp [upd, St.pc, St.dec, St.req, St.addPtr, init]
  intro h2
  by_cases h1 : t = 1 <;> simp [h1, h2]

/-- **C116, partial**: no step uses a deleted request or a deleted file or fails an assertion; a null pointer is used only by `io_type` of a
request that has given up its file and by a `cancel` whose request gives up its file at the same time. -/
theorem C116_partial {fo : Nat → Nat} {s : St} (h : Reach fo s) {op : Op} (hl : Legal fo s op) :
    (∃ s', step s op = .ok s') ∨ step s op = .no ∨
      step s op = .null ∧ ((∃ t r, op = .ioType t r ∧ (s.reqs r).file = none) ∨ (∃ t r, op = .work t ∧ s.thr t = .cancel1 r ∧ (s.reqs r).file = none)) := by
  obtain ⟨g, i⟩ := reach_inv h
  have := good_step i hl
  revert this
  cases step s op <;> simp [Good]

/-- **C116**: a request exists as long as there is a reference to it; its counter is the number of references; requests of serving queues exist no longer. -/
theorem C116_alive {fo : Nat → Nat} {s : St} (h : Reach fo s) {r : Nat} (hr : r ∈ s.ids) :
    (s.reqs r).refs = (s.ptrs.filter (fun p => p.req = r)).length ∧
    ((∃ p ∈ s.ptrs, p.req = r) → (s.reqs r).alive = true) ∧
    ((s.reqs r).aio = false → (s.reqs r).alive = true → ∃ p ∈ s.ptrs, p.req = r) := by
  obtain ⟨g, i⟩ := reach_inv h
  have hc := i.a.cnt r hr
  rw [List.countP_eq_length_filter] at hc
  have hb : (fun p : Holder => p.req == r) = (fun p => decide (p.req = r)) := by funext p; rw [Bool.eq_iff_iff]; simp
  rw [hb] at hc
  refine ⟨hc, ?_, ?_⟩
  · rintro ⟨p, hp, rfl⟩; exact i.a.alive hp
  · intro ha hal
    have h0 := i.a.al2 r hr ha hal
    rw [hc] at h0
    obtain ⟨p, hp⟩ := List.exists_mem_of_length_pos (Nat.pos_of_ne_zero h0)
    rw [List.mem_filter] at hp
    exact ⟨p, hp.1, of_decide_eq_true hp.2⟩

/-- **C116**: only completed requests are destroyed; an unfinished request is in a queue, in the kernel, or some thread is busy with it. -/
theorem C116_destroyed {fo : Nat → Nat} {s : St} (h : Reach fo s) {r : Nat} (hr : r ∈ s.ids) :
    ((s.reqs r).alive = false → (s.reqs r).phase = .ready) ∧
    ((s.reqs r).phase ≠ .ready → .queue r ∈ s.ptrs ∨ r ∈ s.flying ∨ ∃ t, s.thr t = .serve r ∨ s.thr t = .post r ∨ ∃ k w, s.thr t = .comp r k w) := by
  obtain ⟨g, i⟩ := reach_inv h
  have h2 : (s.reqs r).phase ≠ .ready → .queue r ∈ s.ptrs ∨ r ∈ s.flying ∨ ∃ t, s.thr t = .serve r ∨ s.thr t = .post r ∨ ∃ k w, s.thr t = .comp r k w := by
    intro hp
    cases hg : g r with
    | queued => exact .inl ((i.b.q r).2 ⟨hr, hg⟩)
    | fly => exact .inr (.inl ((i.b.fl r).2 ⟨hr, hg⟩))
    | fin => exact absurd (i.b.st2 r hr hg).1 hp
    | own t =>
      refine .inr (.inr ⟨t, ?_⟩)
      have ho := (i.b.ow t r).2 ⟨hr, hg⟩
      have hpc := i.b.pc t
      revert ho hpc
      cases s.thr t with
      | drop y w => cases w <;> simp only [owned, Option.some.injEq, reduceCtorEq, false_implies]; intro e hq; subst e; exact absurd hq.1 hp
      | _ => simp +contextual [owned]
  refine ⟨?_, h2⟩
  intro ha
  apply Classical.byContradiction
  intro hp
  rcases h2 hp with h | h | ⟨t, h⟩
  · have := i.a.alive h
    rw [show (Holder.queue r).req = r from rfl, ha] at this; cases this
  · have := i.a.alive ((i.b.ker r).2 (.inl ((i.b.fl r).1 h)))
    rw [show (Holder.kernel r).req = r from rfl, ha] at this; cases this
  · have ho : owned (s.thr t) = some r := by rcases h with h | h | ⟨k, w, h⟩ <;> rw [h] <;> rfl
    rcases owned_ptr ho with h | h
    · have := i.a.alive ((i.b.lc t r).2 h)
      rw [show (Holder.loc t r).req = r from rfl, ha] at this; cases this
    · have := i.a.alive ((i.b.ker r).2 (.inr ⟨t, h⟩))
      rw [show (Holder.kernel r).req = r from rfl, ha] at this; cases this

/-- **C116**: a file counts the requests that refer to it; a request refers to the file it was made for, or has been completed; a finished request refers to no
file, in particular one for which `wait` has returned; no file warns when it is deleted. -/
theorem C116_file {fo : Nat → Nat} {s : St} (h : Reach fo s) :
    (∀ f, s.nref f = (s.ids.filter (fun r => (s.reqs r).file = some f)).length) ∧
    (∀ r ∈ s.ids, (s.reqs r).file = some (fo r) ∨ (s.reqs r).file = none ∧ (s.reqs r).phase ≠ .op) ∧
    (∀ r ∈ s.ids, (s.reqs r).phase = .ready → (s.reqs r).file = none) ∧
    (∀ r ∈ s.waited, (s.reqs r).phase = .ready) ∧ s.warned = [] := by
  obtain ⟨g, i⟩ := reach_inv h
  refine ⟨?_, ?_, fun r hr => (i.b.file hr).1, fun r hr => (i.c.wt r hr).2, i.c.warn⟩
  · intro f
    rw [i.c.nref f, List.countP_eq_length_filter]
    congr 2
    funext r; rw [Bool.eq_iff_iff]; simp
  · intro r hr
    cases hg : g r with
    | queued => exact .inl (i.b.st1 r hr (.inl hg)).2
    | fly => exact .inl (i.b.st1 r hr (.inr hg)).2
    | fin => exact .inr ⟨(i.b.st2 r hr hg).2, by rw [(i.b.st2 r hr hg).1]; simp⟩
    | own t =>
      have ho := (i.b.ow t r).2 ⟨hr, hg⟩
      have hpc := i.b.pc t
      revert ho hpc
      cases s.thr t with
      | comp y k w => intro ho hpc; simp only [owned, Option.some.injEq] at ho; subst ho; have := hpc.1; cases k <;> simp only [stepOk] at this <;> simp [this]
      | drop y w => cases w <;> simp only [owned, Option.some.injEq, reduceCtorEq, false_implies]; intro e hq; subst e; simp [hq.1, hq.2.1]
      | serve y => intro ho hpc; simp only [owned, Option.some.injEq] at ho; subst ho; exact .inl hpc.2
      | post y => intro ho hpc; simp only [owned, Option.some.injEq] at ho; subst ho; exact .inl hpc.2.1
      | _ => simp [owned]

/-- A client submits two requests for different files and one through linuxaio; it passes a pointer to another thread, gives up its own while the request is
served, waits with the other, and deletes the file. -/
def sample : List Op :=
  [.submit 0 0 0 false false, .copy 0 5 0, .drop 0 0, .submit 0 1 1 false false, .take 1 0, .submit 0 2 0 true false, .take 2 2, .work 2, .work 2, .event 3 2] ++
    List.replicate 6 (.work 3) ++ served 1 ++ [.wait 5 0, .wait 0 2, .drop 5 0, .delFile 0]

example : (match run init sample with
    | .ok s => decide (s.ids = [2, 1, 0] ∧ (s.reqs 0).alive = false ∧ (s.reqs 1).refs = 2 ∧ (s.reqs 2).refs = 1 ∧ s.nref 0 = 0 ∧ s.nref 1 = 1 ∧ s.warned = [] ∧
        s.falive 0 = false)
    | _ => false) = true := by decide +kernel

/-- Canceled before it is taken. -/
example : (match run init ([.submit 0 0 0 false false, .cancel 0 0] ++ List.replicate 8 (.work 0) ++ [.wait 0 0, .drop 0 0]) with
    | .ok s => decide ((s.reqs 0).alive = false ∧ s.nref 0 = 0 ∧ s.ptrs = [])
    | _ => false) = true := by decide +kernel

/-- An illegal deletion warns. -/
example : (match run init [.submit 0 0 0 false false, .delFile 0] with
    | .ok s => decide (s.warned = [0])
    | _ => false) = true := by decide +kernel

end Foxxll.Life
