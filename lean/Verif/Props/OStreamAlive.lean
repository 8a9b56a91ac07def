import Verif.Proofs.OStreamAlive
import Verif.Props.WriterAlive
/-
The output stream with failing writes does not block itself.
-/
namespace Foxxll.WriterFail

variable {α : Type}

/-- **C157**.  Whatever has failed, however many exceptions the client has got and whatever it has called after them: inside the constructor, a call or the destructor of
the stream a request in flight can end, and when none is in flight the thread of the client goes on, returns, gets an exception or is terminated.  No condition on the
numbers of buffers and blocks is needed, unlike for the writer (`C153_false`). -/
theorem C157 (c : Stream.OCfg) (hs : 0 < c.size) (s : OSt α) (hr : OReach c s) (hpc : s.f.w.pc ≠ .idle) :
    (∀ b bid, s.f.w.reqs b = some (bid, false) → oStep c s (.done b) ≠ .blocked ∧ oStep c s (.fail b) ≠ .blocked) ∧
    ((∀ b bid, s.f.w.reqs b ≠ some (bid, false)) → ∃ ch, oStep c s (.work ch) ≠ .blocked ∧ oStep c s (.work ch) ≠ .ub) := by
  have hi := oreach_oi hs hr
  refine ⟨fun b bid hb => ?_, fun hn => ?_⟩
  · constructor
    all_goals
      show oLift s false _ ≠ .blocked
      refine oLift_blocked ?_
      simp only [step, hb]
      split
      · simp
      · exact lift_some ⟨_, by simp only [BufWriter.step, hb]; rfl⟩
  · rcases Nat.eq_zero_or_pos s.f.thrown with h0 | h0
    · obtain ⟨z1, z2⟩ := hi.zero h0
      have hh : s.f.w.held = [] := ((Stream.oreach_inv hs z1).busy hpc).2
      obtain ⟨ch, h1, h2⟩ := (C153_partial (Stream.wbs_pos c) z2 hpc (by rw [hh]; exact (BufWriter.C18_ostream c.nbuffers).2)).2 hn
      exact ⟨ch, oLift_blocked h1, oLift_ub h2⟩
    · exact ⟨0, oLift_blocked (work_any (oreach_any hs hr) hpc (hi.r.exc h0) hn), oLift_ub (work_ub _ _ _ 0)⟩

/-- After an exception, in the next call: no request is in flight, and the block that the stream writes is not one the writer gave it. -/
example : ∃ s : OSt Nat, OReach ⟨1, [⟨0, 0⟩, ⟨0, 8⟩, ⟨0, 16⟩], 2⟩ s ∧ s.f.thrown = 1 ∧ s.f.w.pc = .writing 0 ⟨0, 16⟩ true ∧ s.f.w.held = [] ∧ s.f.w.busy = [1, 0] ∧
    ∀ b bid, s.f.w.reqs b ≠ some (bid, false) := by
  have h := OReach.start (c := ⟨1, [⟨0, 0⟩, ⟨0, 8⟩, ⟨0, 16⟩], 2⟩) (fun _ => [0]) (fun _ => ⟨0, 0⟩) 0 (fun _ => rfl)
  have h := h.next (.work 0) rfl
  have h := h.next (.call (.assign 10)) rfl
  have h := h.next (.call .advance) rfl
  have h := h.next (.work 0) rfl
  have h := h.next (.work 0) rfl
  have h := h.next (.call (.assign 11)) rfl
  have h := h.next (.call .advance) rfl
  have h := h.next (.work 0) rfl
  have h := h.next (.work 0) rfl
  have h := h.next (.work 0) rfl
  have h := h.next (.fail 1) rfl
  have h := h.threw (.work 0) rfl
  have h := h.next (.call (.assign 12)) rfl
  have h := h.next (.call .advance) rfl
  have h := h.next (.work 0) rfl
  have h := h.next (.work 0) rfl
  have h := h.next (.done 0) rfl
  refine ⟨_, h, rfl, rfl, rfl, rfl, fun b bid hc => ?_⟩
  by_cases h0 : b = 0
  · subst h0; cases hc
  · by_cases h1 : b = 1
    · subst h1; cases hc
    · replace hc : BufWriter.upd (BufWriter.upd (BufWriter.upd (BufWriter.upd (fun _ => none) 1 (some (⟨0, 0⟩, false))) 1 (some (⟨0, 0⟩, true))) 0 (some (⟨0, 8⟩, false))) 0
        (some (⟨0, 8⟩, true)) b = some (bid, false) := hc
      simp [BufWriter.upd, h0, h1] at hc

/-- What every exception out of the batch loop of `write` or of `flush` leaves behind (in the destructor it ends the program): the block whose turn it was is no longer in the batch, although it was not submitted.
So such calls cannot go on throwing for ever, and the block is lost. -/
theorem C157_dropped {n wbs : Nat} {s s' : St α} {ch : Nat} (h : step n wbs s (.work ch) = .threw s') (hpc : (∃ b bid, s.w.pc = .writing b bid true) ∨ s.w.pc = .flushing) :
    ∃ e, s.w.batch.Perm (e :: s'.w.batch) ∧ s.err e.2 = true ∧ (∀ e' ∈ s.w.batch, e.1 ≤ e'.1) ∧ s'.w.busy = s.w.busy ∧ s'.w.reqs = s.w.reqs := by
  obtain ⟨_, hb, hr, _⟩ := work_threw_any h
  have h : work n wbs s ch = .threw s' := h
  have hsub : submit n wbs s ch = .threw s' := by
    unfold work at h
    rcases hpc with ⟨b, bid, hpc⟩ | hpc
    all_goals
      rw [hpc] at h
      simp only at h
      split at h
      · exact (lift_threw h).elim
      · exact h
  unfold submit at hsub
  split at hsub
  · cases hsub
  · rename_i e rest hp
    obtain ⟨h1, h2⟩ := BufWriter.popMin_spec hp
    split at hsub
    · rename_i he
      unfold raise at hsub
      split at hsub
      · cases hsub
      · injection hsub with hsub
        refine ⟨e, ?_, (by simp at he; exact he.2), h2, hb, hr⟩
        rw [← hsub]
        exact h1
    · exact (lift_threw hsub).elim

/-- The stream passes the same block to the writer three times, because two calls threw; the third call throws in the batch loop. -/
example : ∃ s s' : OSt Nat, OReach ⟨1, [⟨0, 0⟩, ⟨0, 8⟩, ⟨0, 16⟩, ⟨0, 24⟩], 2⟩ s ∧ s.f.w.pc = .writing 0 ⟨0, 24⟩ true ∧ s.f.w.batch = [(16, 0)] ∧
    oStep ⟨1, [⟨0, 0⟩, ⟨0, 8⟩, ⟨0, 16⟩, ⟨0, 24⟩], 2⟩ s (.work 0) = .threw s' ∧ s'.f.w.batch = [] ∧ s'.f.thrown = 3 := by
  have h := OReach.start (c := ⟨1, [⟨0, 0⟩, ⟨0, 8⟩, ⟨0, 16⟩, ⟨0, 24⟩], 2⟩) (fun _ => [0]) (fun _ => ⟨0, 0⟩) 0 (fun _ => rfl)
  have h := h.next (.work 0) rfl
  have h := h.next (.call (.assign 10)) rfl
  have h := h.next (.call .advance) rfl
  have h := h.next (.work 0) rfl
  have h := h.next (.work 0) rfl
  have h := h.next (.call (.assign 11)) rfl
  have h := h.next (.call .advance) rfl
  have h := h.next (.work 0) rfl
  have h := h.next (.work 0) rfl
  have h := h.next (.work 0) rfl
  have h := h.next (.fail 1) rfl
  have h := h.threw (.work 0) rfl
  have h := h.next (.call (.assign 12)) rfl
  have h := h.next (.call .advance) rfl
  have h := h.next (.work 0) rfl
  have h := h.next (.work 0) rfl
  have h := h.next (.fail 0) rfl
  have h := h.next (.work 0) rfl
  have h := h.threw (.work 0) rfl
  have h := h.next (.call (.assign 13)) rfl
  have h := h.next (.call .advance) rfl
  have h := h.next (.work 0) rfl
  exact ⟨_, _, h, rfl, rfl, rfl, rfl, rfl⟩

/-- A call is not executed for ever: without calls of the client there are only finitely many steps, also after exceptions. -/
theorem C157_terminates (c : Stream.OCfg) (hs : 0 < c.size) (run : Nat → OSt α) (h0 : OReach c (run 0)) :
    ¬ ∀ i, ∃ op, OInside op ∧ oStep c (run i) op = .ok (run (i + 1)) := by
  intro h
  have hreach : ∀ i, OReach c (run i) := by
    intro i
    induction i with
    | zero => exact h0
    | succ i ih =>
      obtain ⟨op, _, hs⟩ := h i
      exact ih.next op hs
  have key : ∀ x : Nat × Nat × Nat, ∀ i, oLeft (run i).f = x → False := by
    intro x
    induction x using oless_wf.induction with
    | _ x ih =>
      intro i hx
      obtain ⟨op, ho, hst⟩ := h i
      exact ih _ (hx ▸ oinside_less hs (hreach i) ho hst) (i + 1) rfl
  exact key _ 0 rfl

/-- Hence from inside a call there are steps after which the client returns, gets an exception or is terminated, or, after an exception, undefined behaviour
(`C143_ub_false`). -/
theorem C157_ends (c : Stream.OCfg) (hs : 0 < c.size) (s : OSt α) (hr : OReach c s) :
    ∃ s', OQuiet c s s' ∧ (s'.f.w.pc = .idle ∨ ∃ op, OInside op ∧
      ((∃ s'', oStep c s' op = .threw s'') ∨ oStep c s' op = .terminated ∨ oStep c s' op = .ub ∧ 0 < s'.f.thrown)) := by
  have key : ∀ (x : Nat × Nat × Nat) (s1 : OSt α), oLeft s1.f = x → OReach c s1 → OQuiet c s s1 → ∃ s', OQuiet c s s' ∧ (s'.f.w.pc = .idle ∨ ∃ op, OInside op ∧
      ((∃ s'', oStep c s' op = .threw s'') ∨ oStep c s' op = .terminated ∨ oStep c s' op = .ub ∧ 0 < s'.f.thrown)) := by
    intro x
    induction x using oless_wf.induction with
    | _ x ih =>
      intro s1 hx hr1 hq
      by_cases hpc : s1.f.w.pc = .idle
      · exact ⟨s1, hq, .inl hpc⟩
      have hi := oreach_oi hs hr1
      have fin : ∀ op, OInside op → oStep c s1 op ≠ .blocked → ∃ s', OQuiet c s s' ∧ (s'.f.w.pc = .idle ∨ ∃ op, OInside op ∧
          ((∃ s'', oStep c s' op = .threw s'') ∨ oStep c s' op = .terminated ∨ oStep c s' op = .ub ∧ 0 < s'.f.thrown)) := by
        intro op ho hb
        cases hst : oStep c s1 op with
        | ok s2 => exact ih _ (hx ▸ oinside_less hs hr1 ho hst) s2 rfl (hr1.next op hst) (hq.next op ho hst)
        | threw s2 => exact ⟨s1, hq, .inr ⟨op, ho, .inl ⟨s2, hst⟩⟩⟩
        | terminated => exact ⟨s1, hq, .inr ⟨op, ho, .inr (.inl hst)⟩⟩
        | blocked => exact absurd hst hb
        | assertFail =>
          have hno : ∀ (i : Bool) (r : Res (St (List α))), oLift s1 i r ≠ .assertFail := by
            intro i r
            cases r with
            | ok f => unfold oLift; simp only; split <;> simp
            | _ => simp [oLift]
          cases ho with
          | work ch => exact absurd hst (hno true _)
          | done b => exact absurd hst (hno false (step c.n c.wbs s1.f (.done b)))
          | fail b => exact absurd hst (hno false (step c.n c.wbs s1.f (.fail b)))
        | ub =>
          refine ⟨s1, hq, .inr ⟨op, ho, .inr (.inr ⟨hst, ?_⟩)⟩⟩
          rcases Nat.eq_zero_or_pos s1.f.thrown with h0 | h0
          · have hu := (C143_before (Stream.wbs_pos c) (hi.zero h0).2 h0).2.2
            cases ho with
            | work ch => exact absurd hst (oLift_ub (hu _))
            | done b => exact absurd hst (oLift_ub (s := s1) (i := false) (hu (.done b)))
            | fail b => exact absurd hst (oLift_ub (s := s1) (i := false) (hu (.fail b)))
          · exact h0
      obtain ⟨c1, c2⟩ := C157 c hs s1 hr1 hpc
      by_cases hp : ∃ b bid, s1.f.w.reqs b = some (bid, false)
      · obtain ⟨b, bid, hb⟩ := hp
        exact fin (.done b) (.done b) (c1 b bid hb).1
      · obtain ⟨ch, hc, _⟩ := c2 (fun b bid hb => hp ⟨b, bid, hb⟩)
        exact fin (.work ch) (.work ch) hc
  exact key _ s rfl hr .refl

end Foxxll.WriterFail
