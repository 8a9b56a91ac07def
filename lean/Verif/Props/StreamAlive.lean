import Verif.Proofs.StreamAlive
/-
Property C156: streams with failing reads do not block.
-/
namespace Foxxll.StreamFail
open Foxxll.Stream (ISt IOp iInit iStep IReach)

variable {α : Type} {rev : Bool} {size : Nat} {c : Cfg α}

/-- Three blocks of one element, two buffers, the read of the second fails. -/
def mid : Cfg Nat := { seqLength := 3, seq := [0, 1, 2], bufSize := 2, disk := fun k => [7 + k], fails := fun k => k == 1, junk := fun _ => [0] }

theorem mid_ok : Ok 1 mid := ⟨by decide, by decide, by decide, by decide, fun _ _ => rfl, fun _ _ => rfl⟩

theorem mid_early : Early mid := by
  intro p k h
  show p < k + 2
  match p, h with
  | 0, h => omega
  | 1, h => omega
  | 2, h =>
    have : (2 : Nat) = k := by simpa [mid] using h
    omega
  | p + 3, h => simp [mid] at h

/-- Full statement, false as C15: after a wait that returns without notification, the stream reads a buffer that has no data. -/
theorem C156_false : ∃ s s', Ok 1 mid ∧ Early mid ∧ Reach false 1 mid s 0 ∧ step false 1 mid s .spurious = .ok s' ∧ step false 1 mid s' .advance = .ub :=
  ⟨_, _, mid_ok, mid_early, Reach.start (rev := false) (size := 1) (c := mid) 0 rfl, rfl, rfl⟩

/-- The constructor succeeds. -/
theorem C156_start_partial (hO : Ok size c) (blk : Nat) : ∃ s, iInit rev size c.eff blk = .ok s := by
  obtain ⟨s, h, _⟩ := Stream.iinit_inv (rev := rev) hO.pos hO.order.good blk
  exact ⟨s, h⟩

/-- Without such wake-ups: whatever reads fail and however many exceptions the client has got, no step is undefined, and an assert fails only if the client goes on after the
end of the stream. -/
theorem C156_safe_partial (hO : Ok size c) {s : ISt α} {m : Nat} (h : Reach rev size c s m) (op : IOp) (hsp : op ≠ .spurious) :
    step rev size c s op ≠ .ub ∧ (step rev size c s op = .assertFail → op = .advance ∧ s.notFinished = false) := by
  obtain ⟨g, hI⟩ := reach_inv hO h
  exact safe hO hI hsp

/-- While the client is in a call, some thread can take a step. -/
theorem C156_partial (hO : Ok size c) (hE : Early c) {s : ISt α} {m : Nat} (h : Reach rev size c s m) (hpc : s.pc ≠ .idle) :
    ∃ op s', op ≠ .advance ∧ op ≠ .spurious ∧ (step rev size c s op = .ok s' ∨ step rev size c s op = .threw s') := by
  obtain ⟨g, hI⟩ := reach_inv hO h
  exact progress hO hE hI hpc

/-- In one call the threads take at most five steps more than three for each buffer. -/
theorem C156_terminates (hO : Ok size c) {s s' : ISt α} {m n : Nat} (h : Reach rev size c s m) (hg : Goes rev size c n s s') :
    n ≤ 5 + 3 * min c.bufSize c.seqLength := by
  have h1 := goes_meas hO h hg
  have h2 : total c.eff.nread s.p.reqs ≤ 3 * min c.bufSize c.seqLength := total_le _ _
  have h3 : pcRank s.pc ≤ 5 := by cases s.pc <;> simp [pcRank]
  unfold meas at h1
  omega

/-- So a call ends, with a return or an exception, in every interleaving in which the threads go on as long as they can. -/
theorem C156_ends (hO : Ok size c) (hE : Early c) {s s' : ISt α} {m n : Nat} (h : Reach rev size c s m) (hg : Goes rev size c n s s')
    (hstop : ∀ s'', ¬ Goes rev size c (n + 1) s s'') : s'.pc = .idle := by
  false_or_by_contra
  rename_i hpc
  obtain ⟨m', hr⟩ := goes_reach h hg
  obtain ⟨op, s'', h1, h2, h3⟩ := C156_partial hO hE hr hpc
  exact hstop s'' (.more op hg h1 h2 h3)

/-- And the client can then call again as long as the stream is not at its end: `++` begins. -/
theorem C156_goes_on (hO : Ok size c) {s : ISt α} {m : Nat} (h : Reach rev size c s m) (hpc : s.pc = .idle) (hn : s.notFinished = true) :
    ∃ s', step rev size c s .advance = .ok s' := by
  have hs := C156_safe_partial hO h .advance (by simp)
  have hl : step rev size c s .advance = lift (iStep rev size c.eff s .advance) := by simp only [step]; rfl
  rw [hl] at hs ⊢
  cases hq : iStep rev size c.eff s .advance with
  | ok s' => exact ⟨s', rfl⟩
  | ub => exact absurd (by rw [hq]; rfl) hs.1
  | assertFail =>
    have := (hs.2 (by rw [hq]; rfl)).2
    rw [hn] at this; cases this
  | blocked =>
    exfalso
    simp only [iStep, hpc, hn, if_true] at hq
    split at hq
    · cases hq
    · split at hq
      · cases hq
      · split at hq <;> cases hq

/-- Without failures the two models of the streams agree: the same states are reached, no exception is thrown, and each step has the same outcome. -/
theorem C156_agree (hf : ∀ k, c.fails k = false) (s : ISt α) (m : Nat) :
    (Reach rev size c s m ↔ m = 0 ∧ IReach rev size { seqLength := c.seqLength, seq := c.seq, bufSize := c.bufSize, disk := c.disk } false s) ∧
    ∀ op, step rev size c s op = lift (iStep rev size { seqLength := c.seqLength, seq := c.seq, bufSize := c.bufSize, disk := c.disk } s op) := by
  rw [← eff_plain hf]
  refine ⟨⟨fun h => ?_, fun h => ?_⟩, step_plain hf s⟩
  · induction h with
    | start blk h => exact ⟨rfl, .start blk h⟩
    | next op _ hsp h ih => exact ⟨ih.1, .next op ih.2 (fun e => absurd e hsp) (step_ok h).1⟩
    | threw op _ hsp h ih =>
      rw [step_plain hf] at h
      exact absurd h lift_threw
  · obtain ⟨rfl, h⟩ := h
    induction h with
    | start blk h => exact .start blk h
    | next op _ hsp h ih => exact .next op ih (fun e => by simpa using hsp e) (by rw [step_plain hf, h]; rfl)

/-- The schedules that the library computes meet the conditions on the order. -/
theorem C156_schedule (disks : List (Option Nat)) (m D : Nat) (hm : 0 < m) (hL : 0 < disks.length) (hD : Sched.DisksOk disks D)
    (busy0 : Nat → Bool) (choice : Nat → Nat) (out : List Nat) (h : Sched.computeSchedule disks m D busy0 choice = some out)
    (hs : 0 < size) (disk junk : Nat → List α) (hd : ∀ k, (disk k).length = size) (hj : ∀ k, (junk k).length = size) (fails : Nat → Bool) :
    Ok size { seqLength := disks.length, seq := out, bufSize := m, disk := disk, fails := fails, junk := junk } ∧
    Early { seqLength := disks.length, seq := out, bufSize := m, disk := disk, fails := fails, junk := junk } := by
  obtain ⟨h1, h2⟩ := Prefetch.C15_schedule_ok disks m D hm hL hD busy0 choice out h disk
  exact ⟨⟨hs, h1.1, hL, hm, fun k _ => hd k, fun k _ => hj k⟩, h2⟩

/-- A call that ends with an exception: the stream stands at the second block, whose read failed; the next step of `++` throws. -/
example : ∃ s s', Reach false 1 mid s 0 ∧ s.pc = .consuming ∧ Goes false 1 mid 2 s s' ∧ s'.pc = .idle ∧ s'.notFinished = true := by
  have h := Reach.start (rev := false) (size := 1) (c := mid) 0 rfl
  have h := Reach.next (.copy 0) h (by simp) rfl
  have h := Reach.next (.signal 0) h (by simp) rfl
  have h := Reach.next .wake h (by simp) rfl
  have h := Reach.next .advance h (by simp) rfl
  have h := Reach.next (.finish 0) h (by simp) rfl
  have h := Reach.next .consume h (by simp) rfl
  have h := Reach.next (.copy 1) h (by simp) rfl
  have h := Reach.next (.signal 1) h (by simp) rfl
  have h := Reach.next .wake h (by simp) rfl
  have h := Reach.next .advance h (by simp) rfl
  exact ⟨_, _, h, rfl, .more .consume (.more (.finish 1) (.none _) (by simp) (by simp) (.inl rfl)) (by simp) (by simp) (.inr rfl), rfl, rfl⟩

end Foxxll.StreamFail
