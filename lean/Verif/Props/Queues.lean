/-
Properties C21, C22 and C23: the request queues with a worker thread.
-/
import Verif.Proofs.Queues
import Verif.Proofs.QueuesAux
set_option linter.unusedSimpArgs false

namespace Foxxll.Queue

/-! ### Concrete histories -/

/-- No restriction. -/
def Any : St → Op → Prop := fun _ _ => True

/-- No cancellation. -/
def NoCancel : St → Op → Prop := fun _ op => ∀ r w, op ≠ .cancel r w

/-- The worker does nothing between `set_to(TERMINATING)` and `sem.signal()`. -/
def AtomicStop : St → Op → Prop := fun s op => op = .work → s.spc ≠ .set

/-! ### C21 -/

/-- **C21, order and exactly once**: the served requests are a beginning of the requests that
were submitted and not cancelled, in the order of submission; none is served twice and no
cancelled one is served, now or later. -/
theorem C21_fifo {s : St} (h : Reach .oneQ Any s) :
    s.served <+: (s.sub.map (·.1)).filter (fun r => !s.cancelled.contains r) ∧ s.served.Nodup ∧
    (∀ r ∈ s.cancelled, r ∉ s.served) := by
  have ho := reach_ord h
  have hd : due s = s.served ++ (cur s.wpc ++ s.wq) := by rw [due_one h, ho.srv]; simp
  refine ⟨⟨_, hd.symm⟩, ?_, ?_⟩
  · have := ho.sd
    rw [ho.srv, List.nodup_append] at this
    exact this.1
  · intro r hr hs
    have : r ∈ due s := by rw [hd]; simp [hs]
    simp [due] at this
    exact this.2 hr

/-- **C21, cancellation** (both queues): `cancel_request` reports success iff the request was
submitted, is not started and was not cancelled before; only then is it cancelled. -/
theorem C21_cancel {k : Kind} {s s' : St} {r : Nat} {w : Bool} (h : Reach k Any s) (hl : Legal s (.cancel r w))
    (hs : step k s (.cancel r w) = .ok s') :
    ∃ b, s'.cancelRes = s.cancelRes ++ [(r, b)] ∧ s'.cancelled = (if b then s.cancelled ++ [r] else s.cancelled) ∧
      (b = true ↔ r ∈ s.sub.map (·.1) ∧ r ∉ s.started ∧ r ∉ s.cancelled) := by
  have ho := reach_ord h
  simp only [step, cancel] at hs
  split at hs
  · cases hs
  split at hs
  · cases hs
  split at hs
  · rename_i hm
    injection hs with hs
    subst hs
    refine ⟨true, by split <;> rfl, by split <;> rfl, ?_⟩
    simp only [true_iff]
    by_cases ht : toW k w
    · have hm : r ∈ s.wq := by simpa [qOf, ht] using hm
      have := ho.fw.mem ho.nodup hm
      exact ⟨subs_sub this.1, this.2.2.1, this.2.1⟩
    · have hm : r ∈ s.rq := by simpa [qOf, ht] using hm
      have := ho.fr.mem ho.nodup hm
      exact ⟨subs_sub this.1, this.2.2.1, this.2.1⟩
  · rename_i hm
    injection hs with hs
    subst hs
    refine ⟨false, rfl, rfl, ?_⟩
    simp only [Bool.false_eq_true, false_iff]
    rintro ⟨h1, h2, h3⟩
    apply hm
    have hd : r ∈ due s := by
      simp only [due, List.mem_filter]
      exact ⟨h1, by simpa using h3⟩
    have := (due_perm ho).mem_iff.1 hd
    simp [h2] at this
    have hw : ∃ w', (r, w') ∈ s.sub := by
      obtain ⟨⟨x, w'⟩, h4, h5⟩ := List.mem_map.1 h1
      exact ⟨w', by simp only at h5; rw [← h5]; exact h4⟩
    obtain ⟨w', hw'⟩ := hw
    have e := hl.1 w' hw'
    subst e
    rcases this with h4 | h4
    · have h5 := (ho.fw.mem ho.nodup h4).1
      obtain ⟨w2, h6, h7⟩ := mem_subs.1 h5
      have := uniq ho.nodup h6 hw'
      subst this
      simp [qOf, h7, h4]
    · have h5 := (ho.fr.mem ho.nodup h4).1
      obtain ⟨w2, h6, h7⟩ := mem_subs.1 h5
      have := uniq ho.nodup h6 hw'
      subst this
      simp at h7
      simp [qOf, h7, h4]

/-- **C21, progress** (both queues): from every state of a running queue, steps of the threads
that are already inside the queue lead to a state in which exactly the requests that were
submitted and not cancelled are served.  (In particular no wake-up is lost and no canceller
hangs.) -/
theorem C21_progress {k : Kind} {s : St} (h : Reach k Any s) (hsp : s.spc = .none) :
    ∃ t, Runs k s t ∧ t.sub = s.sub ∧ t.cancelled = s.cancelled ∧
      t.served.Perm ((s.sub.map (·.1)).filter (fun r => !s.cancelled.contains r)) := by
  obtain ⟨t, ht, h1, h2, h3⟩ := drains_aux _ s (reach_bal h) hsp (Nat.le_refl _)
  obtain ⟨hb, ho, e1, e2, e3⟩ := ht.inv (reach_bal h) (reach_ord h)
  refine ⟨t, ht, e1, e2, ?_⟩
  have := due_perm ho
  rw [h1, h2, ho.srv, h3] at this
  simp [cur, due, e1, e2] at this
  simpa [e1, e2] using this.symm

/-- A worker that waits with no token available has nothing to do. -/
theorem C21_idle {s : St} (h : Reach .oneQ Any s) (hw : s.wpc = .wait) (h0 : s.sem = 0) (hn : s.nsig = 0) :
    s.served = (s.sub.map (·.1)).filter (fun r => !s.cancelled.contains r) := by
  have hb := (reach_bal h).bal
  have ho := reach_ord h
  have : due s = s.served ++ (cur s.wpc ++ s.wq) := by rw [due_one h, ho.srv]; simp
  rw [hw, h0, hn] at hb
  simp only [tok] at hb
  have hq : s.wq = [] := List.eq_nil_of_length_eq_zero (by omega)
  rw [hw, hq] at this
  simp [cur] at this
  exact this.symm

/-- No legal call throws or violates an assertion. -/
theorem C21_no_error {k : Kind} {s : St} {op : Op} (h : Reach k Any s) (hl : Legal s op) :
    step k s op ≠ .throws ∧ step k s op ≠ .assertFail := by
  have hb := reach_bal h
  cases op with
  | push r w =>
    have := (hb.run hl.2).1
    simp only [step, push, this]
    constructor <;> (repeat' split) <;> simp_all
  | cancel r w =>
    have := (hb.run hl.2).1
    simp only [step, cancel, this]
    constructor <;> (repeat' split) <;> simp_all
  | signal => simp only [step]; split <;> simp
  | cancelTake => simp only [step]; split <;> simp
  | work =>
    simp only [step, work]
    repeat' split
    all_goals simp
  | stopSet =>
    simp only [step]
    split
    · rename_i h1
      simp [(hb.run h1).1]
    · simp
  | stopSignal => simp only [step]; split <;> simp
  | join =>
    simp only [step]
    split
    · rename_i h1
      have := hb.term (.inr h1.1)
      simp [h1.2] at this
      simp [this]
    · simp

/-- Three requests, the second cancelled while the first is being served; then everything else is
served. -/
example : ∃ s, Reach .oneQ Any s ∧ s.served = [1, 3] ∧ s.cancelled = [2] ∧ s.spc = .none ∧ s.wpc = .wait ∧ s.sem = 0 ∧ s.nsig = 0 := by
  obtain ⟨s, h, hp⟩ := witness .oneQ (P := Any) (fun _ _ => true) (fun _ _ _ => trivial)
    [.push 1 true, .signal, .work, .work, .push 2 false, .signal, .push 3 true, .signal, .cancel 2 false, .cancelTake,
      .work, .work, .work, .work, .work, .work]
    (fun s => s.served == [1, 3] && s.cancelled == [2] && s.spc == .none && s.wpc == .wait && s.sem == 0 && s.nsig == 0) (by decide)
  refine ⟨s, h, ?_⟩
  simpa [and_assoc] using hp

/-- A request can be cancelled while the worker already holds its token (hypotheses of
`C21_cancel`, success), and not once it is being served (failure). -/
example : ∃ s, Reach .oneQ Any s ∧ Legal s (.cancel 1 true) ∧ s.wpc = .token ∧ (step .oneQ s (.cancel 1 true)) ≠ .blocked := by
  obtain ⟨s, h, hp⟩ := witness .oneQ (P := Any) (fun _ _ => true) (fun _ _ _ => trivial)
    [.push 1 true, .signal, .work] (fun s => legalB s (.cancel 1 true) && s.wpc == .token && decide (step .oneQ s (.cancel 1 true) ≠ .blocked)) (by decide)
  simp only [Bool.and_eq_true, beq_iff_eq, decide_eq_true_eq] at hp
  exact ⟨s, h, legalB_legal hp.1.1, hp.1.2, hp.2⟩

/-! ### C22 -/

/-- **C22 is false** for both queues: if the worker finishes a request after the destructor has
set TERMINATING but before it has called `sem.signal()`, and exactly one request is queued, then
`sem_.wait()` returns 0 and the worker terminates without serving it. -/
theorem C22_false (k : Kind) : ∃ s, Reach k Any s ∧ s.spc = .joined ∧ s.sub.map (·.1) = [1, 2] ∧ s.cancelled = [] ∧
    s.served = [1] := by
  obtain ⟨s, h, hp⟩ := witness k (P := Any) (fun _ _ => true) (fun _ _ _ => trivial)
    [.push 1 true, .signal, .push 2 true, .signal, .work, .work, .stopSet, .work, .work, .work, .stopSignal, .work, .join]
    (fun s => s.spc == .joined && s.sub.map (·.1) == [1, 2] && s.cancelled == [] && s.served == [1]) (by cases k <;> decide)
  refine ⟨s, h, ?_⟩
  simpa [and_assoc] using hp

/-- If the worker takes no step between the two statements of `stop_thread`, then exactly the
requests that were submitted and not cancelled are served when the destructor returns.  Missing
for C22: the interleavings with such a step. -/
theorem C22_partial {k : Kind} {s : St} (h : Reach k AtomicStop s) (hj : s.spc = .joined) :
    s.served.Perm ((s.sub.map (·.1)).filter (fun r => !s.cancelled.contains r)) := by
  have ho := reach_ord h
  have hd := (reach_bal h).joined hj
  have he := (reach_noRace (fun _ _ h => h) h).empty (.inr hd.2)
  have := due_perm ho
  rw [he.1, he.2, ho.srv, hd.2] at this
  simp [cur] at this
  exact this.symm

/-- In every interleaving at most one request is lost, nothing is served twice and nothing
cancelled is served. -/
theorem C22_at_most_one_lost {k : Kind} {s : St} (h : Reach k Any s) (hj : s.spc = .joined) :
    s.served.Nodup ∧ (∀ r ∈ s.served, r ∈ (s.sub.map (·.1)).filter (fun r => !s.cancelled.contains r)) ∧
    ((s.sub.map (·.1)).filter (fun r => !s.cancelled.contains r)).length ≤ s.served.length + 1 := by
  have ho := reach_ord h
  have hb := reach_bal h
  have hd := hb.joined hj
  have hl := hb.lost (.inr hd.2)
  have hp := due_perm ho
  have he : s.started = s.served := by rw [ho.srv, hd.2]; simp [cur]
  rw [he] at hp
  refine ⟨he ▸ ho.sd, ?_, ?_⟩
  · intro r hr
    exact hp.mem_iff.2 (by simp [hr])
  · have := hp.length_eq
    simp only [due, List.length_append] at this
    omega

/-- The destructor never hangs: once it has signalled, the worker terminates by its own steps,
and `join` returns without violating the assertion. -/
theorem C22_terminates {k : Kind} {s : St} (h : Reach k Any s) (hs : s.spc = .signalled) :
    ∃ t u, Runs k s t ∧ step k t .join = .ok u ∧ u.spc = .joined := by
  obtain ⟨t, ht, hd⟩ := terminates_aux _ s (reach_bal h) hs (Nat.le_refl _)
  obtain ⟨hb, ho, e1, e2, e3⟩ := ht.inv (reach_bal h) (reach_ord h)
  have hts : t.ts = .terminated := by
    have := hb.term (.inr (e3.trans hs))
    simpa [hd] using this
  exact ⟨t, { t with ts := .notRunning, spc := .joined }, ht, by simp [step, e3, hs, hd, hts], rfl⟩

/-- Shutdown with two queued requests and without the race: both are served. -/
example : ∃ s, Reach .twoQ AtomicStop s ∧ s.spc = .joined ∧ s.served = [1, 2] := by
  obtain ⟨s, h, hp⟩ := witness .twoQ (P := AtomicStop) (fun s op => op != .work || s.spc != .set)
    (by intro s op h hw; simpa [hw] using h)
    [.push 1 true, .signal, .push 2 true, .signal, .work, .work, .stopSet, .stopSignal, .work, .work, .work, .work, .work, .work, .work,
      .work, .work, .work, .join]
    (fun s => s.spc == .joined && s.served == [1, 2]) (by decide)
  refine ⟨s, h, ?_⟩
  simpa using hp

/-- A state in which the destructor waits while requests are queued. -/
example : ∃ s, Reach .twoQ Any s ∧ s.spc = .signalled ∧ s.wq = [1] ∧ s.rq = [2] := by
  obtain ⟨s, h, hp⟩ := witness .twoQ (P := Any) (fun _ _ => true) (fun _ _ _ => trivial)
    [.push 1 true, .signal, .push 2 false, .signal, .stopSet, .stopSignal]
    (fun s => s.spc == .signalled && s.wq == [1] && s.rq == [2]) (by decide)
  refine ⟨s, h, ?_⟩
  simpa [and_assoc] using hp

/-! ### C23 -/

/-- `v` precedes `r` in the list `l`. -/
def Precedes (v r : Nat) (l : List Nat) : Prop := ∃ a b, l = a ++ r :: b ∧ v ∈ a

/-- **C23 is false**: after the cancellation of a queued read whose token the worker has already
taken, the worker is in its read phase with an empty read queue; then a read submitted after a
write (by the same thread) is served before it. -/
theorem C23_false : ∃ s, Reach .twoQ Any s ∧ s.sub = [(0, false), (1, true), (2, false)] ∧ s.cancelled = [0] ∧
    s.served = [2] ∧ s.wq = [1] := by
  obtain ⟨s, h, hp⟩ := witness .twoQ (P := Any) (fun _ _ => true) (fun _ _ _ => trivial)
    [.push 0 false, .signal, .work, .cancel 0 false, .work, .work, .work, .cancelTake,
      .push 1 true, .signal, .push 2 false, .signal, .work, .work, .work]
    (fun s => s.sub == [(0, false), (1, true), (2, false)] && s.cancelled == [0] && s.served == [2] && s.wq == [1]) (by decide)
  refine ⟨s, h, ?_⟩
  simpa [and_assoc] using hp

/-- Writes are served in submission order and reads are served in submission order, each exactly
once, cancelled ones never; for every interleaving with submitters, cancellers and the
destructor. -/
theorem C23_fifo {s : St} (h : Reach .twoQ Any s) (w : Bool) :
    s.served.filter (fun r => s.sub.contains (r, w)) <+:
      ((s.sub.filter (fun p => p.2 == w)).map (·.1)).filter (fun r => !s.cancelled.contains r) ∧
    s.served.Nodup ∧ (∀ r ∈ s.cancelled, r ∉ s.served) ∧ (∀ r ∈ s.served, r ∈ s.sub.map (·.1)) := by
  have ho := reach_ord h
  have hp := due_perm ho
  have hst : ∀ r ∈ s.served, r ∈ s.started := by intro r hr; rw [ho.srv]; simp [hr]
  refine ⟨?_, ?_, ?_, fun r hr => ho.st r (hst r hr)⟩
  · have key : ∀ (f : Bool → Bool) (q : List Nat), (∀ b, f b = (b == w)) → Fifo f s q →
        s.served.filter (fun r => s.sub.contains (r, w)) <+:
          ((s.sub.filter (fun p => p.2 == w)).map (·.1)).filter (fun r => !s.cancelled.contains r) := by
      intro f q hf h1
      have e1 : subs f s = (s.sub.filter (fun p => p.2 == w)).map (·.1) := by
        simp only [subs, hf]
      have e2 : ∀ r, (subs f s).contains r = s.sub.contains (r, w) := by
        intro r
        rw [e1, Bool.eq_iff_iff]
        simp only [List.contains_iff_mem, List.mem_map, List.mem_filter]
        constructor
        · rintro ⟨⟨x, b⟩, h, rfl⟩
          simp at h
          rw [← h.2]; exact h.1
        · intro h
          exact ⟨(r, w), ⟨h, by simp⟩, rfl⟩
      unfold Fifo at h1
      simp only [e2] at h1
      rw [← e1, h1, ho.srv, List.filter_append, List.append_assoc]
      exact List.prefix_append _ _
    cases w
    · exact key (fun w => !toW .twoQ w) s.rq (by intro b; cases b <;> rfl) ho.fr
    · exact key (toW .twoQ) s.wq (by intro b; cases b <;> rfl) ho.fw
  · have := ho.sd
    rw [ho.srv, List.nodup_append] at this
    exact this.1
  · intro r hr hs
    have : r ∈ due s := hp.mem_iff.2 (by simp [hst r hs])
    simp [due] at this
    exact this.2 hr

/-- Without cancellations a read is served after every write submitted before it.  Missing for
C23: histories with a cancellation. -/
theorem C23_partial {s : St} (h : Reach .twoQ NoCancel s) {v r : Nat} {a b : List (Nat × Bool)}
    (hs : s.sub = a ++ (r, false) :: b) (hv : (v, true) ∈ a) (hr : r ∈ s.served) : Precedes v r s.served := by
  have hraw := (reach_raw (fun _ _ h => h) h).raw
  have ho := reach_ord h
  obtain ⟨p, q, hpq⟩ := List.append_of_mem hr
  have : s.started = p ++ r :: (q ++ cur s.wpc) := by rw [ho.srv, hpq]; simp
  exact ⟨p, q, hpq, hraw _ _ _ this a b hs v hv⟩

/-- A read and two writes around it, without cancellation. -/
example : ∃ s, Reach .twoQ NoCancel s ∧ s.sub = [(5, false), (1, true), (2, false)] ∧ s.served = [1, 5, 2] := by
  obtain ⟨s, h, hp⟩ := witness .twoQ (P := NoCancel) (fun _ op => match op with | .cancel _ _ => false | _ => true)
    (by intro s op h r w e; subst e; simp at h)
    [.push 5 false, .signal, .push 1 true, .signal, .push 2 false, .signal,
      .work, .work, .work, .work, .work, .work, .work, .work, .work, .work, .work, .work, .work, .work, .work, .work, .work, .work, .work]
    (fun s => s.sub == [(5, false), (1, true), (2, false)] && s.served == [1, 5, 2]) (by decide)
  refine ⟨s, h, ?_⟩
  simpa using hp

end Foxxll.Queue
