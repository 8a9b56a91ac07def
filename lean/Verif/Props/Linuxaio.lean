import Verif.Proofs.Linuxaio
import Verif.Proofs.LinuxaioAux
/-
Properties C29-C32 and C61-C63: the queue for Linux asynchronous I/O.
-/
set_option linter.unusedSimpArgs false
set_option linter.unusedVariables false
namespace Foxxll.Aio

/-- All steps. -/
def Any (_ : St) (_ : Op) : Prop := True
def isUb {σ : Type} : Res σ → Bool
  | .ub => true
  | _ => false

def anyB (_ : St) (_ : Op) : Bool := true
/-- Submission of one request and its way into the kernel. -/
def submitOne (r : Nat) : List Op := [.add r, .addSig, .post {}, .post {}, .post {}, .post {}, .post {}, .post { k := 1 }, .post {}]

/-! ### C29 -/

def overOps : List Op :=
  submitOne 0 ++ [.cancelK 0 true, .kstep 0, .kstep 0, .kstep 0, .kstep 0] ++ submitOne 1 ++ submitOne 2

/-- C29 is false: a confirmed cancellation frees the event twice, so more operations than events
are handed to the kernel. -/
theorem C29_false : ¬ ∀ s, Reach Any s → s.infl.length ≤ s.maxE := by
  intro h
  have := h _ (reach_run (b := anyB) (fun _ _ _ => trivial) overOps _ (.start 1 (by decide)) (by decide))
  revert this
  decide

/-- C29 as far as it is true: as long as the kernel confirms no cancellation, the number of
operations in flight and free events never exceeds the number of events, and whenever no thread is
inside the queue the three counters are exact.  Missing: confirmed cancellations, where it is false. -/
theorem C29_partial {s : St} (h : Reach NoConfirm s) :
    s.infl.length + s.nf ≤ s.maxE ∧
    (AtRest s → s.nw = s.waiting.length ∧ s.nf = s.maxE - s.infl.length ∧ s.np = s.infl.length) := by
  have hi := reach_inv (fun _ _ h => h) h
  have hf := hi.free
  refine ⟨by omega, ?_⟩
  rintro ⟨h1, h2, h3, h4, h5, h6, h7⟩
  have ht := reach_tok (fun _ _ h => h) (quiet_of_idle h h7)
  have hw := ht.w
  have hp := ht.p
  rw [h1, h3, h4, h5] at hw
  rw [h1, h2] at hp hf
  simp only [tokP, tokW, h7, pEat, pSig, wEat, pAcc, wAcc, pRes, pUns, wUns, List.length_nil] at hw hp hf
  simp at hw hp
  omega

/-- The exact values at every moment, also while threads are inside: `num_free_events_` is what the
kernel, the batch of the posting thread and the events not yet returned leave over;
`num_waiting_requests_` and `num_posted_requests_` differ from the list lengths by what has been
taken and not yet accounted, or accounted in advance. -/
theorem C29_exact_partial {s : St} (h : Reach Quiet s) :
    s.nf + s.infl.length + pRes s.post + pUns s.post + wUns s.wt = s.maxE ∧
    s.nw + s.nsig + pEat s.post = s.waiting.length + s.canc.length + s.ncw + tokP s ∧
    s.np + pSig s.post + wEat s.wt = s.infl.length + pAcc s.post + wAcc s.wt + tokW s :=
  ⟨(reach_inv (fun _ _ h => h.1) h).free, (reach_tok (fun _ _ h => h) h).w, (reach_tok (fun _ _ h => h) h).p⟩

/-- Two operations in flight on two events. -/
example : ∃ s, Reach NoConfirm s ∧ AtRest s ∧ s.infl.length = 2 ∧ s.maxE = 2 :=
  ⟨_, reach_run (b := noConfirmB) noConfirmB_ok (submitOne 0 ++ submitOne 1) _ (.start 2 (by decide)) (by decide), by decide, by decide, by decide⟩

example : ∃ s, Reach Quiet s ∧ s.post = .submit [0] ∧ s.nf = 2 :=
  ⟨_, reach_run (P := Quiet) (b := benignB) (fun s op h => ⟨(benignB_ok s op h).1, (benignB_ok s op h).2.1⟩)
    ((submitOne 0).take 7) _ (.start 3 (by decide)) (by decide), by decide, by decide⟩

/-! ### C30 -/

/-- A kernel with room for `limit` events: larger wishes are refused with EAGAIN, absurd ones with
another error. -/
def kernelLimit (limit : Int) (m : Int) : Setup :=
  if m ≤ 0 ∨ 2 ^ 23 < m then .err else if m ≤ limit then .ok else .again

/-- C30 is false: with room for 32 events and 64 desired the constructor fails, although 32 (or one)
would have been granted. -/
theorem C30_false : ¬ ∀ limit desired : Int, 1 ≤ limit → 1 ≤ desired → desired < 2 ^ 23 →
    ∃ n, 1 ≤ n ∧ n ≤ limit ∧ construct (kernelLimit limit) desired = .events n := by
  intro h
  obtain ⟨n, h1, h2, h3⟩ := h 32 64 (by decide) (by decide) (by decide)
  have : construct (kernelLimit 32) 64 = .throws := by decide
  rw [this] at h3; cases h3

/-- How far it is false: for every kernel that with a number of events also accepts each smaller
one, the constructor succeeds only if the kernel accepts the first wish.  The loop never helps. -/
theorem C30_never {setup : Int → Setup} (hmono : ∀ a b, 0 < a → a ≤ b → setup b = .ok → setup a = .ok)
    (hneg : ∀ m, m ≤ 0 → setup m ≠ .ok) {desired : Int} (hd : 0 < desired) (hno : setup desired ≠ .ok) (n : Int) :
    construct setup desired ≠ .events n := by
  unfold construct
  rw [if_neg (by omega)]
  exact negotiate_events hmono hneg 40 desired n hd hno (.inl (by omega))

/-- C30 as far as it is true: the desired number (64 by default) is used if the kernel accepts it,
and if one event is refused, or another error occurs, the constructor throws.  Missing: the retry
with fewer events, which does not exist (`C30_false`, `C30_never`). -/
theorem C30_partial (setup : Int → Setup) (desired : Int) :
    (setup (if desired = 0 then 64 else desired) = .ok → construct setup desired = .events (if desired = 0 then 64 else desired)) ∧
    (setup (if desired = 0 then 64 else desired) = .err → construct setup desired = .throws) ∧
    (desired = 1 → setup 1 ≠ .ok → construct setup desired = .throws) := by
  refine ⟨?_, ?_, ?_⟩
  · intro h; simp only [construct, negotiate, h]
  · intro h; simp only [construct, negotiate, h]
  · rintro rfl h
    cases h1 : setup 1 with
    | ok => exact absurd h1 h
    | again => simp [construct, negotiate, h1]
    | err => simp [construct, negotiate, h1]

/-- Only 32-bit values are given to the kernel: answers to others do not matter. -/
theorem C30_range {setup setup' : Int → Setup} (h : ∀ m, -2 ^ 31 ≤ m → m < 2 ^ 31 → setup m = setup' m) {desired : Int} (h1 : -2 ^ 31 ≤ desired)
    (h2 : desired < 2 ^ 31) : construct setup desired = construct setup' desired := by
  unfold construct
  apply negotiate_range h
  · split <;> omega
  · split <;> omega

/-- A kernel that always wants to be asked again: the wishes run through the powers of two up to the sign bit. -/
example : construct (fun m => if m = 2 ^ 30 then .ok else .again) 64 = .events (2 ^ 30) ∧ construct (fun _ => .again) 64 = .throws ∧
    construct (fun m => if m = -2 ^ 31 then .ok else .again) 64 = .events (-2 ^ 31) := by decide +kernel

example : construct (kernelLimit 100) 0 = .events 64 ∧ construct (kernelLimit 100) 7 = .events 7 ∧ kernelLimit 100 64 = .ok ∧
    construct (kernelLimit 0) 1 = .throws := by decide
example : ∃ n, 0 < n ∧ kernelLimit 32 n ≠ .ok := ⟨64, by decide, by decide⟩

/-! ### C31 -/

/-- Two requests in one batch; the kernel accepts the first only; the waiting thread takes its
token and waits for events; the posting thread, trying to make room, reaps the event. -/
def deadOps : List Op :=
  [.add 0, .add 1, .addSig, .addSig, .post {}, .post {}, .post {}, .post {}, .post {}, .post {}, .post {}, .post { k := 1 }, .post {},
   .wait {}, .wait {}, .post { evs := [0] }, .post {}, .post {}, .post {}]

def deadSt : St := endSt noConfirmB (init 2) deadOps

/-- Runs of any steps. -/
inductive Later : St → St → Prop
  | refl (s : St) : Later s s
  | next {s s1 s2 : St} (op : Op) : Later s s1 → step s1 op = .ok s2 → Later s s2

/-- C31 is false: without any cancellation posting and waiting thread can deadlock for good.  From
the state reached, whatever happens, no step of either thread is ever possible again, a request
already taken from the queue is never completed, and the destructor does not return. -/
theorem C31_false : ¬ ∀ s, Reach NoConfirm s → ∀ r ∈ s.subm, ∃ s', Later s s' ∧ r ∈ s'.comp.map (·.1) := by
  intro h
  obtain ⟨s', h1, h2⟩ := h deadSt
    (reach_run (b := noConfirmB) noConfirmB_ok deadOps _ (.start 2 (by decide)) (by decide)) 1 (by decide)
  have hd : Dead deadSt := by constructor <;> decide
  have : Dead s' := by
    clear h2
    induction h1 with
    | refl => exact hd
    | next op _ hs ih => exact dead_step ih hs
  exact this.comp h2

/-- In that state the destructor can be started but never gets beyond joining the posting thread. -/
theorem C31_false_destructor : ∃ s, Reach NoConfirm s ∧ ∀ s', Later s s' → s'.dtor ≠ .done ∧ s'.post = .hPost 1 [1] ∧ s'.wt = .reap := by
  refine ⟨deadSt, reach_run (b := noConfirmB) noConfirmB_ok deadOps _ (.start 2 (by decide)) (by decide), ?_⟩
  intro s' h1
  have hd : Dead deadSt := by constructor <;> decide
  have : Dead s' := by
    induction h1 with
    | refl => exact hd
    | next op _ hs ih => exact dead_step ih hs
  refine ⟨?_, this.post, this.wt⟩
  rcases this.dtor with h | h | h <;> (rw [h]; simp)

/-- The comment "will never block" is wrong even for a kernel that accepts whole batches: the
waiting thread can reap an operation before the posting thread has counted it. -/
theorem C31_blocks : ∃ s, Reach Benign s ∧ s.wt = .hPost 2 ∧ s.np = 1 ∧ s.post = .sig 1 [] :=
  ⟨_, reach_run (b := benignB) benignB_ok
    (submitOne 0 ++ [.wait {}, .wait {}] ++ (submitOne 1).take 8 ++ [.wait { evs := [0, 1] }, .wait {}, .wait {}, .wait {}, .wait {}, .wait {}]) _
    (.start 2 (by decide)) (by decide), by decide, by decide, by decide⟩

/-- C31 as far as it is true: if the kernel accepts whole batches and confirms no cancellation, the
posting thread never reaps, and the waiting thread is held up in its accounting only while the
posting thread is about to count what it has submitted - which it can do at once, and which
suffices.  Missing: partial batches and EAGAIN, where it is false. -/
theorem C31_partial {s : St} (h : Reach Benign s) :
    (∀ n cbs, s.post ≠ .hPost n cbs) ∧
    ∀ n, s.wt = .hPost n → s.np < n →
      ∃ k s', s.post = .sig k [] ∧ step s (.post {}) = .ok s' ∧ s'.wt = .hPost n ∧ n ≤ s'.np := by
  have hf := reach_full (fun _ _ h => ⟨h.1, h.2.2⟩) h
  have ht := reach_tok (fun _ _ h => ⟨h.1, h.2.1⟩) h
  refine ⟨fun n cbs e => by rw [e] at hf; exact hf, ?_⟩
  intro n hw hn
  have hp := ht.p
  rw [hw] at hp
  simp only [wEat, wAcc] at hp
  cases hpos : s.post with
  | sig k rest =>
    rw [hpos] at hf hp
    have hr : rest = [] := hf
    subst hr
    simp only [pSig, pAcc] at hp
    exact ⟨k, { s with np := s.np + k, post := afterSig [] }, rfl, by simp [step, postStep, hpos], hw, by
      have : n ≤ s.np + k := by omega
      exact this⟩
  | hFree _ _ => rw [hpos] at hf; exact hf.elim
  | hComp _ _ _ => rw [hpos] at hf; exact hf.elim
  | hPost _ _ => rw [hpos] at hf; exact hf.elim
  | _ => rw [hpos] at hp; simp only [pSig, pAcc] at hp; omega

/-- No deadlock and no starvation: from every reachable state, steps of the two threads, of calls
already inside the queue and of the kernel - no new call is needed - complete everything. -/
theorem C31_drains_partial {s : St} (h : Reach Benign s) : ∃ s', Runs s s' ∧
    (s'.dtor = .done ∨ (AtRest s' ∧ s'.waiting = [] ∧ s'.infl = [])) := by
  have hi := reach_inv (fun _ _ h => h.1) h
  obtain ⟨s', h1, h2⟩ := drains_of (rank s) (Nat.le_refl _) hi (reach_tok (fun _ _ h => ⟨h.1, h.2.1⟩) h)
    (reach_reap (fun _ _ h => ⟨h.1, h.2.1⟩) h) (reach_resv (fun _ _ h => h.1) h) (reach_full (fun _ _ h => ⟨h.1, h.2.2⟩) h)
  refine ⟨s', h1, ?_⟩
  have hi' : Inv s' := by
    clear h2
    induction h1 with
    | refl => exact hi
    | next op _ _ _ _ h5 h6 _ ih =>
      exact ih (.next op h ⟨h5, by assumption, by assumption⟩ h6) (inv_step hi h5 h6)
  rcases h2 with h2 | ⟨a, b, c, d, e, f, g, i⟩
  · exact .inl h2
  · exact .inr ⟨⟨g, i, e, d, f, hi'.kcan, a⟩, b, c⟩

example : ∃ s, Reach Benign s ∧ s.waiting = [1] ∧ s.infl = [0] ∧ s.wt = .reap :=
  ⟨_, reach_run (b := benignB) benignB_ok (submitOne 0 ++ [.add 1, .wait {}, .wait {}]) _ (.start 1 (by decide)) (by decide),
    by decide, by decide, by decide⟩

/-! ### C32 -/

/-- C32 is false: after the kernel has confirmed a cancellation the request is completed a second
time, which dereferences its file pointer, null by then. -/
theorem C32_false : ¬ ∀ s, Reach Any s → ∀ i, isUb (step s (.kstep i)) = false := by
  intro h
  have := h _ (reach_run (b := anyB) (fun _ _ _ => trivial) (submitOne 0 ++ [.cancelK 0 true, .kstep 0, .kstep 0, .kstep 0, .kstep 0]) _
    (.start 1 (by decide)) (by decide)) 0
  revert this
  decide

/-- Nor need it come that far: if the waiting thread has already taken the token of the operation,
the canceller waits for the posted counter under `waiting_mtx_`, the waiting thread for an event,
and everyone else for the lock.  Only the destructor can move. -/
theorem C32_false_deadlock : ∃ s, Reach Any s ∧ s.dtor = .idle ∧ s.kcan = [(0, .posted1)] ∧
    ∀ op, op ≠ .stop → isOk (step s op) = false := by
  refine ⟨_, reach_run (b := anyB) (fun _ _ _ => trivial) (submitOne 0 ++ [.wait {}, .wait {}, .cancelK 0 true, .kstep 0, .kstep 0]) _
    (.start 1 (by decide)) (by decide), by decide, by decide, ?_⟩
  have e : endSt anyB (init 1) (submitOne 0 ++ [.wait {}, .wait {}, .cancelK 0 true, .kstep 0, .kstep 0]) =
    { maxE := 1, waiting := [], nw := 0, nf := 1, np := 0, infl := [], post := .wait, wt := .reap, nsig := 0, canc := [], ncw := 0,
      kcan := [(0, .posted1)], dtor := .idle, subm := [0], comp := [(0, false)], kerr := [] } := by decide
  rw [e]
  intro op hop
  cases op with
  | stop => exact absurd rfl hop
  | wait o =>
    simp only [step, waitStep]
    split
    · rfl
    split
    · rename_i hc
      simp only [Bool.and_eq_true] at hc
      have := reapable_len hc.1
      simp only at this
      have he : o.evs = [] := by
        cases e : o.evs with
        | nil => rfl
        | cons a b => rw [e] at this; simp at this
      simp [he] at hc
    · rfl
  | post o => simp [step, postStep, isOk]
  | kstep i =>
    cases i with
    | zero => simp [step, kStep, isOk]
    | succ i => simp [step, kStep, isOk]
  | add r => simp [step, locked, isOk]
  | addSig => simp [step, isOk]
  | cancelW r => simp [step, locked, isOk]
  | cancelComp r => simp [step, isOk]
  | cancelDone => simp [step, isOk]
  | cancelK r ok => simp [step, locked, isOk]

/-- C32 as far as it is true: the part of `cancel_request` under the lock (`cancel_aio`, with its
call of `handle_events`) does exactly what the property asks for, provided the waiting thread has
not taken the token: one event freed, one completion with `success = false`, one posted operation
less.  Missing: the second accounting after it, which makes the property false. -/
theorem C32_partial {s : St} {r : Nat} (hd : s.dtor = .idle) (hl : locked s = false) (hr : r ∈ s.infl) (hk : s.kcan = [])
    (hc : r ∉ s.comp.map (·.1)) (hp : 0 < s.np) :
    runOps anyB s [.cancelK r true, .kstep 0, .kstep 0, .kstep 0] =
      .ok { s with infl := s.infl.erase r, nf := s.nf + 1, np := s.np - 1, comp := s.comp ++ [(r, false)], kcan := [(r, .free2)] } := by
  have hp' : s.np ≠ 0 := by omega
  have e1 : step s (.cancelK r true) = .ok { s with infl := s.infl.erase r, kcan := [(r, .free1)] } := by
    simp [step, hd, hl, hr, hk]
  have e2 : step { s with infl := s.infl.erase r, kcan := [(r, .free1)] } (.kstep 0) =
      .ok { s with infl := s.infl.erase r, kcan := [(r, .comp1)], nf := s.nf + 1 } := rfl
  have e3 : step { s with infl := s.infl.erase r, kcan := [(r, .comp1)], nf := s.nf + 1 } (.kstep 0) =
      .ok { s with infl := s.infl.erase r, kcan := [(r, .posted1)], nf := s.nf + 1, comp := s.comp ++ [(r, false)] } := by
    simp only [step, kStep]
    have : complete { s with infl := s.infl.erase r, kcan := [(r, KPc.comp1)], nf := s.nf + 1 } r false = _ := complete_of hc
    simp [this]
  simp only [runOps, anyB, if_true, e1, e2, e3]
  simp [step, kStep, hp']

/-- A request in flight with everything at rest meets the hypotheses. -/
example : ∃ s, Reach Any s ∧ s.dtor = .idle ∧ locked s = false ∧ 0 ∈ s.infl ∧ s.kcan = [] ∧ 0 ∉ s.comp.map (·.1) ∧ 0 < s.np :=
  ⟨_, reach_run (b := anyB) (fun _ _ _ => trivial) (submitOne 0) _ (.start 1 (by decide)) (by decide),
    by decide, by decide, by decide, by decide, by decide, by decide⟩

/-! ### C61 -/

/-- C61 is false: the posting thread takes the token of a request, the destructor sets TERMINATING,
the thread sees zero tokens left and leaves; the request stays in the list. -/
theorem C61_false : ¬ ∀ s, Reach NoConfirm s → s.dtor = .done → ∀ r ∈ s.subm, r ∈ s.comp.map (·.1) := by
  intro h
  have := h _ (reach_run (b := noConfirmB) noConfirmB_ok
    [.add 0, .addSig, .post {}, .stop, .post {}, .post {}, .stop, .stop, .stop, .wait {}, .wait {}, .wait {}, .stop] _ (.start 1 (by decide)) (by decide))
    (by decide) 0 (by decide)
  revert this
  decide

/-- The same in the waiting thread: the destructor returns, and destroys the context, with an
operation in flight, whose buffer the kernel may still write. -/
theorem C61_false_in_flight : ∃ s, Reach NoConfirm s ∧ s.dtor = .done ∧ s.infl = [0] :=
  ⟨_, reach_run (b := noConfirmB) noConfirmB_ok
    (submitOne 0 ++ [.stop, .stop, .post {}, .post {}, .post {}, .wait {}, .stop, .wait {}, .wait {}, .stop, .stop]) _ (.start 1 (by decide)) (by decide),
    by decide, by decide⟩

/-- C61 as far as it is true: if no thread is between taking a token and testing its state when
the destructor sets the state, and none takes one between the two statements of `stop_thread`
(`Calm`), every request is completed exactly once when the destructor returns, and nothing is left
in the kernel.  Missing: those two windows, where it is false. -/
theorem C61_partial {s : St} (h : Reach Quiet s) (hd : s.dtor = .done) :
    s.waiting = [] ∧ s.infl = [] ∧ ∀ r, (s.comp.map (·.1)).count r = s.subm.count r := by
  have hi := reach_inv (fun _ _ h => h.1) h
  have ht := reach_tok (fun _ _ h => h) h
  have h1 := ht.pdead (by simp [wTerm, hd])
  have h2 := ht.wdead hd
  obtain ⟨h3, _⟩ := ht.pend (by rw [h1]; rfl)
  obtain ⟨h4, _⟩ := ht.wend (by rw [h2]; rfl)
  refine ⟨h3, h4, fun r => ?_⟩
  have := hi.cons r
  simpa [places, h1, h2, h3, h4, pHeld, pEvs, wEvs, (ht.quiet (by simp [hd])).2.1] using this

/-- And the destructor does return if the kernel accepts whole batches: from every state in which
it has begun. -/
theorem C61_returns_partial {s : St} (h : Reach Benign s) (hd : s.dtor ≠ .idle) : ∃ s', Runs s s' ∧ s'.dtor = .done := by
  obtain ⟨s', h1, h2⟩ := C31_drains_partial h
  refine ⟨s', h1, ?_⟩
  rcases h2 with h2 | ⟨h2, hx⟩
  · exact h2
  · exfalso
    have hid := h2.2.2.2.2.2.2
    clear h2 hx
    induction h1 with
    | refl => exact hd hid
    | @next s s1 s2 op _ h3 h4 h5 h6 hs _ ih =>
      have hr1 : Reach Benign s1 := .next op h ⟨h6, h4, h5⟩ hs
      refine ih hr1 ?_ hid
      intro e
      exact hd (idle_back (reach_inv (fun _ _ h => h.1) h) hs e)

example : ∃ s, Reach Quiet s ∧ s.dtor = .done ∧ s.subm = [0, 1] :=
  ⟨_, reach_run (P := Quiet) (b := benignB) (fun s op h => ⟨(benignB_ok s op h).1, (benignB_ok s op h).2.1⟩)
    (submitOne 0 ++ submitOne 1 ++ [.wait {}, .wait {}, .wait { evs := [1, 0] }, .wait {}, .wait {}, .wait {}, .wait {}, .wait {}, .wait {},
      .stop, .stop, .post {}, .post {}, .post {}, .stop, .stop, .wait {}, .wait {}, .wait {}, .stop]) _ (.start 2 (by decide)) (by decide),
    by decide, by decide⟩

example : ∃ s, Reach Benign s ∧ s.dtor ≠ .idle ∧ s.infl = [0] ∧ s.waiting = [1] :=
  ⟨_, reach_run (b := benignB) benignB_ok (submitOne 0 ++ [.add 1, .addSig, .stop]) _ (.start 1 (by decide)) (by decide),
    by decide, by decide, by decide⟩

/-! ### C62 -/

/-- C62: without confirmed cancellations, for every interleaving and every behaviour of the kernel:
no step is undefined, no request is completed twice, none is both completed and still waiting or in
flight, none is at two places, and when no thread is inside the queue each submitted request waits,
is in flight or is completed. -/
theorem C62_partial {s : St} (h : Reach NoConfirm s) :
    (s.comp.map (·.1)).Nodup ∧ s.waiting.Nodup ∧ s.infl.Nodup ∧
    (∀ r, r ∈ s.comp.map (·.1) → r ∉ s.waiting ∧ r ∉ s.infl) ∧ (∀ r, r ∈ s.waiting → r ∉ s.infl) ∧
    (∀ op, NoConfirm s op → isUb (step s op) = false) ∧
    (AtRest s → ∀ r ∈ s.subm, r ∈ s.waiting ∨ r ∈ s.infl ∨ r ∈ s.comp.map (·.1)) := by
  have hi := reach_inv (fun _ _ h => h) h
  have hle : ∀ r, places s r ≤ 1 := fun r => by
    rw [hi.cons r]; exact List.nodup_iff_count.1 hi.nd r
  refine ⟨?_, ?_, ?_, ?_, ?_, ?_, ?_⟩
  · refine List.nodup_iff_count.2 (fun r => ?_); have := hle r; simp only [places] at this; omega
  · refine List.nodup_iff_count.2 (fun r => ?_); have := hle r; simp only [places] at this; omega
  · refine List.nodup_iff_count.2 (fun r => ?_); have := hle r; simp only [places] at this; omega
  · intro r hr
    have := hle r
    have hc := List.count_pos_iff.2 hr
    simp only [places] at this
    exact ⟨fun e => by have := List.count_pos_iff.2 e; omega, fun e => by have := List.count_pos_iff.2 e; omega⟩
  · intro r hr e
    have := hle r
    have hc := List.count_pos_iff.2 hr
    have := List.count_pos_iff.2 e
    simp only [places] at *
    omega
  · intro op hop
    cases hs : step s op with
    | ub => exact absurd hs (no_ub hi hop)
    | _ => rfl
  · rintro ⟨h1, h2, h3, h4, h5, h6, h7⟩ r hr
    have hc := hi.cons r
    have := List.count_pos_iff.2 hr
    simp only [places, h1, h2, h4, pHeld, pEvs, wEvs, List.count_nil] at hc
    by_cases ha : r ∈ s.waiting
    · exact .inl ha
    by_cases hb : r ∈ s.infl
    · exact .inr (.inl hb)
    right; right
    rw [List.count_eq_zero_of_not_mem ha, List.count_eq_zero_of_not_mem hb] at hc
    exact List.count_pos_iff.1 (by omega)

/-- C62 is false with confirmed cancellations (the second `completed`). -/
theorem C62_false : ¬ ∀ s, Reach Any s → ∀ op, isUb (step s op) = false :=
  fun h => C32_false (fun s hr i => h s hr (.kstep i))

/-- One request completed, one in flight, one waiting. -/
example : ∃ s, Reach NoConfirm s ∧ s.comp = [(0, true)] ∧ s.infl = [1] ∧ s.waiting = [2] ∧ s.wt = .wait :=
  ⟨_, reach_run (b := noConfirmB) noConfirmB_ok (submitOne 0 ++ [.wait {}, .wait {}, .wait { evs := [0] }, .wait {}, .wait {}, .wait {}, .wait {}, .wait {}] ++
    submitOne 1 ++ [.add 2, .addSig]) _ (.start 1 (by decide)) (by decide), by decide, by decide, by decide, by decide⟩

/-! ### C63 -/

/-- C63 is false: the kernel reports an error, the request is completed with `success = true`. -/
theorem C63_false : ¬ ∀ s, Reach NoConfirm s → ∀ r ∈ s.kerr, (r, true) ∉ s.comp := by
  intro h
  exact h _ (reach_run (b := noConfirmB) noConfirmB_ok (submitOne 0 ++ [.wait {}, .wait {}, .wait { evs := [0], bad := [0] }, .wait {}, .wait {}, .wait {}]) _
    (.start 1 (by decide)) (by decide)) 0 (by decide) (by decide)

/-- It is never true: whenever a request with an error is completed, it is completed as a success. -/
theorem C63_never {s : St} (h : Reach NoConfirm s) {r : Nat} (hr : r ∈ s.kerr) {b : Bool} (hc : (r, b) ∈ s.comp) : b = true :=
  (reach_kerr h).2 r hr b hc

end Foxxll.Aio
