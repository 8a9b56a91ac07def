import Verif.Spec.StreamAlive
import Verif.Proofs.StreamFail
import Verif.Props.Streams
/-
Helper lemmas about the progress of streams with failing reads.
-/
set_option linter.unusedSimpArgs false
set_option linter.unusedVariables false
namespace Foxxll.StreamFail
open Foxxll.Stream (ISt IOp iInit iStep IInv IReach)

variable {α : Type} {rev : Bool} {size : Nat} {c : Cfg α}

/-- Steps that a request still has to take. -/
def rank : Option (Nat × Prefetch.Stage) → Nat
  | some (_, .issued) => 3
  | some (_, .copied) => 2
  | some (_, .signalled) => 1
  | _ => 0

def pcRank : Stream.IPc → Nat
  | .idle => 0
  | .waiting => 1
  | .consuming => 5

def total (n : Nat) (f : Nat → Option (Nat × Prefetch.Stage)) : Nat := ((List.range n).map fun b => rank (f b)).sum

/-- Bound for the steps until the call ends and all requests are ready. -/
def meas (c : Cfg α) (s : ISt α) : Nat := pcRank s.pc + total c.eff.nread s.p.reqs

theorem rank_le (x : Option (Nat × Prefetch.Stage)) : rank x ≤ 3 := by
  rcases x with _ | ⟨_, _ | _ | _ | _⟩ <;> simp [rank]

theorem total_succ (n : Nat) (f : Nat → Option (Nat × Prefetch.Stage)) : total (n + 1) f = total n f + rank (f n) := by
  simp [total, List.range_succ]

theorem total_le (n : Nat) (f : Nat → Option (Nat × Prefetch.Stage)) : total n f ≤ 3 * n := by
  induction n with
  | zero => simp [total]
  | succ n ih => have := rank_le (f n); rw [total_succ]; omega

theorem total_upd_ge (n b : Nat) (f : Nat → Option (Nat × Prefetch.Stage)) (v) (h : n ≤ b) : total n (Prefetch.upd f b v) = total n f := by
  induction n with
  | zero => rfl
  | succ n ih =>
    rw [total_succ, total_succ, ih (by omega)]
    simp only [Prefetch.upd]
    rw [if_neg (by omega)]

theorem total_upd (n b : Nat) (f : Nat → Option (Nat × Prefetch.Stage)) (v) (h : b < n) :
    total n (Prefetch.upd f b v) + rank (f b) = total n f + rank v := by
  induction n with
  | zero => omega
  | succ n ih =>
    rw [total_succ, total_succ]
    by_cases hb : b = n
    · subst hb
      rw [total_upd_ge b b f v (Nat.le_refl _)]
      simp only [Prefetch.upd, if_true]
      omega
    · have := ih (by omega)
      have e : Prefetch.upd f b v n = f n := by simp only [Prefetch.upd]; rw [if_neg (by omega)]
      rw [e]; omega

theorem pInv (hO : Ok size c) {s : ISt α} {m : Nat} {g : List α} (hI : FInv rev size c s m g) : Prefetch.Inv c.eff s.p :=
  Prefetch.reach_inv hO.order.good (show Prefetch.Reach c.eff false s.p from hI.inv.reach)

theorem refill_total (hO : Ok size c) {s s' : Prefetch.St (List α)} {b n : Nat} (h : Prefetch.refill c.eff s b = .ok s') (hb : b < c.eff.nread)
    (hr : s.reqs b = some (n, .ready)) : total c.eff.nread s'.reqs ≤ total c.eff.nread s.reqs + 3 := by
  have h0 := total_upd c.eff.nread b s.reqs none hb
  rw [hr] at h0
  simp only [rank] at h0
  unfold Prefetch.refill at h
  simp only at h
  split at h
  · split at h
    · cases h
    · rename_i k _
      split at h
      · split at h
        · cases h
        · injection h with h; subst h
          simp only [Prefetch.submit]
          have := total_upd c.eff.nread b (Prefetch.upd s.reqs b none) (some (k, .issued)) hb
          simp only [rank] at this
          omega
      · cases h
  · injection h with h; subst h
    show total c.eff.nread (Prefetch.upd s.reqs b none) ≤ _
    omega

theorem meas_lt (hO : Ok size c) {s s' : ISt α} {m : Nat} {g : List α} (hI : FInv rev size c s m g) {op : IOp} (ha : op ≠ .advance) (hsp : op ≠ .spurious)
    (h : step rev size c s op = .ok s' ∨ step rev size c s op = .threw s') : meas c s' < meas c s := by
  have hp := pInv hO hI
  rcases h with h | h
  · have h := (step_ok h).1
    cases op with
    | advance => exact absurd rfl ha
    | spurious => exact absurd rfl hsp
    | copy b =>
      simp only [iStep, Prefetch.step] at h
      cases hr : s.p.reqs b with
      | none => simp [hr, Stream.lift] at h
      | some q =>
        obtain ⟨n, st⟩ := q
        have hb := (hp.req b n st hr).2.2.1
        cases st <;> simp only [hr, Stream.lift] at h <;> first | (cases h; done) | skip
        injection h with h; subst h
        have := total_upd c.eff.nread b s.p.reqs (some (n, .copied)) hb
        rw [hr] at this
        simp only [rank] at this
        simp only [meas]; omega
    | signal b =>
      simp only [iStep, Prefetch.step] at h
      cases hr : s.p.reqs b with
      | none => simp [hr, Stream.lift] at h
      | some q =>
        obtain ⟨n, st⟩ := q
        have hb := (hp.req b n st hr).2.2.1
        cases st <;> simp only [hr, Stream.lift] at h <;> first | (cases h; done) | skip
        injection h with h; subst h
        have := total_upd c.eff.nread b s.p.reqs (some (n, .signalled)) hb
        rw [hr] at this
        simp only [rank] at this
        simp only [meas]; omega
    | finish b =>
      simp only [iStep, Prefetch.step] at h
      cases hr : s.p.reqs b with
      | none => simp [hr, Stream.lift] at h
      | some q =>
        obtain ⟨n, st⟩ := q
        have hb := (hp.req b n st hr).2.2.1
        cases st <;> simp only [hr, Stream.lift] at h <;> first | (cases h; done) | skip
        injection h with h; subst h
        have := total_upd c.eff.nread b s.p.reqs (some (n, .ready)) hb
        rw [hr] at this
        simp only [rank] at this
        simp only [meas]; omega
    | wake =>
      simp only [iStep] at h
      by_cases hpc : s.pc = .waiting
      · rw [if_pos hpc] at h
        simp only [Prefetch.step] at h
        cases hw : s.p.waiting with
        | none => simp [hw, Stream.lift] at h
        | some k =>
          simp only [hw] at h
          split at h
          · unfold Prefetch.handOut at h
            split at h
            · simp [Stream.lift] at h
            · split at h
              · simp only [Stream.lift] at h
                injection h with h; subst h
                simp only [meas, pcRank, hpc]; omega
              · simp [Stream.lift] at h
          · simp [Stream.lift] at h
      · rw [if_neg hpc] at h; cases h
    | consume =>
      simp only [iStep] at h
      by_cases hpc : s.pc = .consuming
      · rw [if_pos hpc] at h
        obtain ⟨k, e1, e2, e3⟩ := consuming_at hI.inv hpc
        obtain ⟨_, st, _, hr⟩ := hp.held k s.blk (by rw [e1]; simp)
        have hb := (hp.req _ _ _ hr).2.2.1
        simp only [Prefetch.step] at h
        split at h
        · simp [Stream.lift] at h
        · rw [if_neg (Nat.not_le.2 hb)] at h
          cases st with
          | ready =>
            simp only [hr] at h
            cases hf : Prefetch.refill c.eff s.p s.blk with
            | ok p' =>
              have ht := refill_total hO hf hb hr
              simp only [hf] at h
              split at h
              · simp only [Stream.lift] at h
                injection h with h; subst h
                split <;> simp only [meas, pcRank, hpc] <;> omega
              · simp only [Stream.lift] at h
                injection h with h; subst h
                have hbw : (Prefetch.beginWait p').reqs = p'.reqs := rfl
                split <;> simp only [meas, pcRank, hpc, hbw] <;> omega
            | _ => simp [hf, Stream.lift] at h
          | _ => simp [hr, Stream.lift] at h
      · rw [if_neg hpc] at h; cases h
  · obtain ⟨_, hpc, _, _, rfl⟩ := step_threw.1 h
    simp only [meas, pcRank, hpc]; omega

theorem goes_reach {n m : Nat} {s s' : ISt α} (hr : Reach rev size c s m) (h : Goes rev size c n s s') : ∃ m', Reach rev size c s' m' := by
  induction h with
  | none => exact ⟨m, hr⟩
  | more op _ h1 h2 h3 ih =>
    obtain ⟨m', ih⟩ := ih hr
    rcases h3 with h3 | h3
    · exact ⟨m', .next op ih h2 h3⟩
    · exact ⟨m' + 1, .threw op ih h2 h3⟩

theorem goes_meas (hO : Ok size c) {n m : Nat} {s s' : ISt α} (hr : Reach rev size c s m) (h : Goes rev size c n s s') : n + meas c s' ≤ meas c s := by
  induction h with
  | none => omega
  | more op hg h1 h2 h3 ih =>
    have := ih hr
    obtain ⟨m', hr'⟩ := goes_reach hr hg
    obtain ⟨g, hI⟩ := reach_inv hO hr'
    have := meas_lt hO hI h1 h2 h3
    omega

theorem progress (hO : Ok size c) (hE : Early c) {s : ISt α} {m : Nat} {g : List α} (hI : FInv rev size c s m g) (hpc : s.pc ≠ .idle) :
    ∃ op s', op ≠ .advance ∧ op ≠ .spurious ∧ (step rev size c s op = .ok s' ∨ step rev size c s op = .threw s') := by
  have hpi := pInv hO hI
  have hl : ∀ {op : IOp} {s' : ISt α}, op ≠ .consume → iStep rev size c.eff s op = .ok s' → step rev size c s op = .ok s' := by
    intro op s' ho h
    cases op with
    | consume => exact absurd rfl ho
    | _ => simp only [step]; rw [h]; rfl
  cases hI.inv.shape with
  | idle k a1 => exact absurd a1 hpc
  | finished a1 => exact absurd a1 hpc
  | waiting a1 a3 a4 a6 a7 =>
    have a1 : s.pc = .waiting := a1
    have hre : Prefetch.Reach c.eff false s.p := hI.inv.reach
    rcases Prefetch.C15_no_deadlock_partial c.eff hO.order hE s.p hre _ a3 a4 with ⟨p, h⟩ | ⟨b, _, ⟨p, h⟩ | ⟨p, h⟩⟩
    · exact ⟨.wake, _, by simp, by simp, .inl (hl (by simp) (by simp only [iStep, a1, if_true, h, Stream.lift]; rfl))⟩
    · exact ⟨.copy b, _, by simp, by simp, .inl (hl (by simp) (by simp only [iStep, h, Stream.lift]; rfl))⟩
    · exact ⟨.signal b, _, by simp, by simp, .inl (hl (by simp) (by simp only [iStep, h, Stream.lift]; rfl))⟩
  | consuming k a1 a3 a4 a5 a6 a7 =>
    have a1 : s.pc = .consuming := a1
    have a3 : s.p.waiting = none := a3
    have a4 : s.p.held = [(k, s.blk)] := a4
    obtain ⟨_, st, hst, hreq⟩ := hpi.held k s.blk (by rw [a4]; simp)
    cases st with
    | issued => simp [Prefetch.Stage.on] at hst
    | copied => simp [Prefetch.Stage.on] at hst
    | signalled => exact ⟨.finish s.blk, _, by simp, by simp, .inl (hl (by simp) (by simp only [iStep, Prefetch.step, hreq, Stream.lift]; rfl))⟩
    | ready =>
      by_cases hbad : bad c s s.blk = true
      · exact ⟨.consume, _, by simp, by simp, .inr (step_threw.2 ⟨rfl, a1, hbad, by simp only [done, hreq], rfl⟩)⟩
      · have hb := (hpi.req _ _ _ hreq).2.2.1
        obtain ⟨r, hrf, _⟩ := Prefetch.refill_spec hO.order.good hpi a3 (k := k) (b := s.blk) (by rw [a4]; simp)
        refine ⟨.consume, ?_⟩
        have e : step rev size c s .consume = lift (iStep rev size c.eff s .consume) := by
          simp only [step]
          rw [if_pos trivial, if_neg (by simp [hbad])]
        rw [e]
        simp only [iStep, a1, if_true, Prefetch.step, a3, Option.isSome_none, Bool.false_eq_true, if_false,
          if_neg (Nat.not_le.2 hb), hreq, hrf]
        split <;> exact ⟨_, by simp, by simp, .inl rfl⟩

theorem safe (hO : Ok size c) {s : ISt α} {m : Nat} {g : List α} (hI : FInv rev size c s m g) {op : IOp} (hsp : op ≠ .spurious) :
    step rev size c s op ≠ .ub ∧ (step rev size c s op = .assertFail → op = .advance ∧ s.notFinished = false) := by
  have hi := hI.inv
  have key : iStep rev size c.eff s op ≠ .ub ∧ (iStep rev size c.eff s op = .assertFail → op = .advance ∧ s.notFinished = false) := by
    have lifted : ∀ (pop : Prefetch.Op) (f : Prefetch.St (List α) → ISt α), Prefetch.Legal c.eff s.p pop → pop ≠ .spurious →
        Stream.lift f (Prefetch.step c.eff s.p pop) ≠ .ub ∧ Stream.lift f (Prefetch.step c.eff s.p pop) ≠ .assertFail := by
      intro pop f hl hp
      obtain ⟨h1, h2⟩ := (Prefetch.C15_safe_partial c.eff hO.order).2 s.p hi.reach pop hl hp
      cases hq : Prefetch.step c.eff s.p pop with
      | ub => exact absurd hq h1
      | assertFail => exact absurd hq h2
      | blocked => simp [Stream.lift]
      | ok p => simp [Stream.lift]
    cases op with
    | advance =>
      simp only [iStep]
      cases hi.shape with
      | idle k a1 a2 a3 a4 a5 a6 =>
        obtain ⟨x, hx, hb⟩ := Stream.advance_ok hO.order hO.lens hi a1 a2 a4 a5
        have a1 : s.pc = .idle := a1
        have a2 : s.notFinished = true := a2
        have hx : (c.eff.disk k)[s.elem]? = some x := hx
        have hb : s.p.bufs s.blk = some (c.eff.disk k) := hb
        simp only [a1, a2, if_true, hb, hx]
        split <;> simp
      | consuming k a1 =>
        have a1 : s.pc = .consuming := a1
        simp [a1]
      | waiting a1 =>
        have a1 : s.pc = .waiting := a1
        simp [a1]
      | finished a1 a2 a3 a4 a6 =>
        have a1 : s.pc = .idle := a1
        have a2 : s.notFinished = false := a2
        simp only [a1, a2, if_true, Bool.false_eq_true, if_false]
        exact ⟨by simp, fun _ => ⟨trivial, trivial⟩⟩
    | consume =>
      simp only [iStep]
      split
      · rename_i hpc
        obtain ⟨k, e1, _⟩ := consuming_at hi hpc
        exact ⟨(lifted (.consumed s.blk) _ ⟨k, by rw [e1]; simp⟩ (by simp)).1,
            fun h => absurd h (lifted (.consumed s.blk) _ ⟨k, by rw [e1]; simp⟩ (by simp)).2⟩
      · simp
    | wake =>
      simp only [iStep]
      split
      · exact ⟨(lifted .wake _ trivial (by simp)).1, fun h => absurd h (lifted .wake _ trivial (by simp)).2⟩
      · simp
    | spurious => exact absurd rfl hsp
    | copy b =>
      exact ⟨(lifted (.copy b) _ trivial (by simp)).1, fun h => absurd h (lifted (.copy b) _ trivial (by simp)).2⟩
    | signal b =>
      exact ⟨(lifted (.signal b) _ trivial (by simp)).1, fun h => absurd h (lifted (.signal b) _ trivial (by simp)).2⟩
    | finish b =>
      exact ⟨(lifted (.finish b) _ trivial (by simp)).1, fun h => absurd h (lifted (.finish b) _ trivial (by simp)).2⟩
  have hl : step rev size c s op = lift (iStep rev size c.eff s op) ∨ step rev size c s op = .blocked ∨ ∃ t, step rev size c s op = .threw t := by
    cases op with
    | consume =>
      simp only [step, if_true]
      split
      · split
        · exact .inr (.inr ⟨_, rfl⟩)
        · exact .inr (.inl rfl)
      · exact .inl rfl
    | _ => exact .inl (by simp only [step]; rfl)
  rcases hl with e | e | ⟨t, e⟩
  · rw [e]
    cases hq : iStep rev size c.eff s op with
    | ub => exact absurd hq key.1
    | assertFail => exact ⟨by simp [lift], fun _ => key.2 hq⟩
    | blocked => simp [lift]
    | ok p => simp [lift]
  · rw [e]; simp
  · rw [e]; simp

/-- The stream without failures as in `Model/Streams.lean`. -/
theorem eff_plain (h : ∀ k, c.fails k = false) : c.eff = { seqLength := c.seqLength, seq := c.seq, bufSize := c.bufSize, disk := c.disk } := by
  unfold Cfg.eff
  congr 1
  funext k
  simp [h k]

theorem step_plain (h : ∀ k, c.fails k = false) (s : ISt α) (op : IOp) : step rev size c s op = lift (iStep rev size c.eff s op) := by
  have hb : bad c s s.blk = false := by
    unfold bad
    split
    · exact h _
    · rfl
  cases op with
  | consume => simp only [step, if_true]; rw [if_neg (by simp [hb])]
  | _ => simp only [step]; rfl

end Foxxll.StreamFail
