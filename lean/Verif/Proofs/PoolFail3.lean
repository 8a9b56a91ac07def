/-
Helper lemmas for C121-C124: histories without failures, destructors, the reasons of exceptions.
-/
import Verif.Proofs.PoolFail2

namespace Foxxll.PoolFail

/-! ### Histories without failures -/

/-- No request fails. -/
def noFail (l : List Ev) : Prop := ∀ r, Ev.fail r ∉ l

/-- No request fails, no submission throws. -/
def clean : Op → Prop
  | .write _ _ _ sw _ evs sp => sw = false ∧ sp = false ∧ noFail evs
  | .hint _ _ sub => sub = false
  | .read _ _ _ sub => sub = false
  | .invalidate _ _ evs => noFail evs
  | .steal evs => ∀ l ∈ evs, noFail l
  | .resizeW _ _ evss => ∀ evs ∈ evss, ∀ l ∈ evs, noFail l
  | .destroy e1 e2 _ => (∀ l ∈ e1, noFail l) ∧ (∀ l ∈ e2, noFail l)
  | .ev e => ∀ r, e ≠ .fail r
  | _ => True

theorem events_err {s : St} {l : List Ev} (h : noFail l) : (events s l).err = s.err := by
  induction l generalizing s with
  | nil => rfl
  | cons e l ih =>
    have h1 : noFail l := fun r hr => h r (List.mem_cons_of_mem _ hr)
    show (events (event s e) l).err = _
    rw [ih h1]
    cases e with
    | fail r => exact absurd (List.mem_cons_self) (h r)
    | finish r => rfl

theorem headD_noFail {evs : List (List Ev)} (h : ∀ l ∈ evs, noFail l) : noFail (evs.headD []) := by
  cases evs with
  | nil => intro r hr; cases hr
  | cons a l => exact h a List.mem_cons_self

theorem tail_noFail {evs : List (List Ev)} (h : ∀ l ∈ evs, noFail l) : ∀ l ∈ evs.tail, noFail l :=
  fun l hl => h l (List.mem_of_mem_tail hl)

theorem not_failed {s : St} (h : s.err = []) (r : Nat) : failed s r = false := by simp [failed, h]

theorem scan_clean {s : St} {evs : List (List Ev)} {l : List WEnt} {i : Nat} (h : s.err = []) (hv : ∀ v ∈ evs, noFail v) :
    (scan s evs l i).1.err = [] ∧ (∀ v ∈ (scan s evs l i).2.1, noFail v) ∧ (scan s evs l i).2.2 ≠ .threw := by
  induction l generalizing s evs i with
  | nil => exact ⟨h, hv, by simp [scan]⟩
  | cons e l ih =>
    have h1 : (events s (evs.headD [])).err = [] := by rw [events_err (headD_noFail hv)]; exact h
    simp only [scan]
    rw [if_neg (by rw [not_failed h1]; simp)]
    split
    · exact ih h1 (tail_noFail hv)
    · exact ⟨h1, tail_noFail hv, by simp⟩

theorem waitAny_clean {s : St} {evs : List (List Ev)} (h : s.err = []) (hv : ∀ v ∈ evs, noFail v) :
    (waitAny s evs).1.err = [] ∧ (∀ l ∈ (waitAny s evs).2.1, noFail l) ∧ (waitAny s evs).2.2 ≠ .threw := by
  have h1 := scan_clean (l := s.wbusy) (i := 0) h hv
  unfold waitAny
  rcases hr : scan s evs s.wbusy 0 with ⟨s1, evs1, sc⟩
  rw [hr] at h1
  obtain ⟨a1, a2, a3⟩ := h1
  cases sc with
  | none =>
    refine scan_clean ?_ (tail_noFail a2)
    rw [events_err (headD_noFail a2)]; exact a1
  | found i => exact ⟨a1, a2, a3⟩
  | threw => exact absurd rfl a3

theorem checkBusy_clean {s : St} {evs : List (List Ev)} {pre l : List WEnt} (h : s.err = []) (hv : ∀ v ∈ evs, noFail v) :
    ∃ s', checkBusy s evs pre l = .ok s' ∧ s'.err = [] := by
  induction l generalizing s evs pre with
  | nil => exact ⟨_, rfl, h⟩
  | cons e l ih =>
    have h1 : (events s (evs.headD [])).err = [] := by rw [events_err (headD_noFail hv)]; exact h
    simp only [checkBusy]
    rw [if_neg (by rw [not_failed h1]; simp)]
    split
    · exact ih h1 (tail_noFail hv)
    · exact ih (s := { events s (evs.headD []) with wfree := _ }) h1 (tail_noFail hv)

theorem wsteal_clean {s : St} {evs : List (List Ev)} (h : s.err = []) (hv : ∀ v ∈ evs, noFail v) :
    (∀ s', wsteal s evs ≠ .throw s') ∧ (∀ s' p, wsteal s evs = .ok (s', p) → s'.err = []) := by
  obtain ⟨a1, a2, a3⟩ := waitAny_clean h hv
  unfold wsteal
  split
  · exact ⟨fun s' hs => (by cases hs), fun s' p hs => (by cases hs)⟩
  · split
    · refine ⟨fun s' hs => (by cases hs), fun s' p hs => ?_⟩
      injection hs with hs; obtain ⟨rfl, rfl⟩ := Prod.mk.inj hs; exact h
    · split
      · exact ⟨fun s' hs => (by cases hs), fun s' p hs => (by cases hs)⟩
      · rename_i s1 _ hwa
        rw [hwa] at a3
        exact absurd rfl a3
      · rename_i s1 evs1 i hwa
        rw [hwa] at a1 a2
        simp only at a1 a2
        split
        · exact ⟨fun s' hs => (by cases hs), fun s' p hs => (by cases hs)⟩
        · obtain ⟨s2, hc, he2⟩ := checkBusy_clean (pre := []) (l := s1.wbusy.eraseIdx i) a1 a2
          rw [hc]
          refine ⟨fun s' hs => (by cases hs), fun s' p hs => ?_⟩
          injection hs with hs; obtain ⟨rfl, rfl⟩ := Prod.mk.inj hs; exact he2

theorem headD_all {evss : List (List (List Ev))} (h : ∀ evs ∈ evss, ∀ l ∈ evs, noFail l) : ∀ l ∈ evss.headD [], noFail l := by
  cases evss with
  | nil => intro l hl; cases hl
  | cons a l => exact h a List.mem_cons_self

theorem stealN_clean {s : St} {evss : List (List (List Ev))} {k : Nat} (h : s.err = []) (hv : ∀ evs ∈ evss, ∀ l ∈ evs, noFail l) :
    (∀ s', stealN s evss k ≠ .throw s') ∧ (∀ s', stealN s evss k = .ok s' → s'.err = []) := by
  induction k generalizing s evss with
  | zero =>
    refine ⟨fun s' hs => (by cases hs), fun s' hs => ?_⟩
    simp only [stealN] at hs
    injection hs with hs; subst hs; exact h
  | succ k ih =>
    obtain ⟨w1, w2⟩ := wsteal_clean h (headD_all hv)
    simp only [stealN]
    cases hw : wsteal s (evss.headD []) with
    | ok r =>
      obtain ⟨s1, p⟩ := r
      exact ih (s := { s1 with deleted := _ }) (w2 s1 p hw) (fun evs he => hv evs (List.mem_of_mem_tail he))
    | throw s1 => exact absurd hw (w1 s1)
    | blocked => exact ⟨fun s' hs => (by cases hs), fun s' hs => (by cases hs)⟩
    | assertFail => exact ⟨fun s' hs => (by cases hs), fun s' hs => (by cases hs)⟩
    | die => exact ⟨fun s' hs => (by cases hs), fun s' hs => (by cases hs)⟩
    | ub => exact ⟨fun s' hs => (by cases hs), fun s' hs => (by cases hs)⟩

theorem hint_err {s s' : St} {bid : Nat} {u sub : Bool} (hs : hint s bid u sub = .ok s' ∨ hint s bid u sub = .throw s') : s'.err = s.err := by
  unfold hint at hs
  split at hs
  · rcases hs with hs | hs
    · injection hs with hs; subst hs; rfl
    · cases hs
  · split at hs
    · rcases hs with hs | hs
      · injection hs with hs; subst hs; rfl
      · cases hs
    · split at hs
      · rcases hs with hs | hs <;> cases hs
      · simp only at hs
        split at hs
        · rcases hs with hs | hs
          · injection hs with hs; subst hs; rfl
          · cases hs
        · split at hs
          · rcases hs with hs | hs
            · cases hs
            · injection hs with hs; subst hs; rfl
          · rcases hs with hs | hs
            · injection hs with hs; subst hs; rfl
            · cases hs

theorem cancel_err (s : St) (r : Nat) (c : Bool) : (cancel s r c).err = s.err := by
  unfold cancel; split <;> rfl

theorem invalidate_clean {s : St} {bid : Nat} {canc : Bool} {evs : List Ev} (h : s.err = []) (hv : noFail evs) :
    (∀ s', invalidate s bid canc evs ≠ .throw s') ∧ (∀ s' b, invalidate s bid canc evs = .ok (s', b) → s'.err = []) := by
  unfold invalidate
  split
  · refine ⟨fun s' hs => (by cases hs), fun s' b hs => ?_⟩
    injection hs with hs; obtain ⟨rfl, rfl⟩ := Prod.mk.inj hs; exact h
  · rename_i e he
    have h1 : (events (if e.rd = true then cancel s e.req canc else s) evs).err = [] := by
      rw [events_err hv]
      split
      · rw [cancel_err]; exact h
      · exact h
    simp only
    generalize events (if e.rd = true then cancel s e.req canc else s) evs = t at h1
    split
    · exact ⟨fun s' hs => (by cases hs), fun s' b hs => (by cases hs)⟩
    · rw [if_neg (by rw [not_failed h1]; simp)]
      refine ⟨fun s' hs => (by cases hs), fun s' b hs => ?_⟩
      injection hs with hs; obtain ⟨rfl, rfl⟩ := Prod.mk.inj hs; exact h1

theorem write_clean {s : St} {blk bid : Nat} {cw : List Nat} {cp : Bool} {evs : List Ev} (h : s.err = []) (hv : noFail evs) :
    (∀ s', write s blk bid cw false cp evs false ≠ .throw s') ∧ (∀ s', write s blk bid cw false cp evs false = .ok s' → s'.err = []) := by
  unfold write
  cases hw : wwrite s blk bid cw false with
  | ok s1 =>
    have h1 : s1.err = [] := by rw [(wwrite_frame.1 hw).2.2]; exact h
    simp only
    obtain ⟨i1, i2⟩ := invalidate_clean (bid := bid) (canc := cp) h1 hv
    cases hi : invalidate s1 bid cp evs with
    | ok r =>
      obtain ⟨s2, b⟩ := r
      have h2 := i2 s2 b hi
      cases b with
      | true =>
        refine ⟨fun s' hs => ?_, fun s' hs => ?_⟩
        · have := (hint_frame.2 hs).1; cases this
        · rw [hint_err (Or.inl hs)]; exact h2
      | false =>
        refine ⟨fun s' hs => (by cases hs), fun s' hs => ?_⟩
        injection hs with hs; subst hs; exact h2
    | throw s2 => exact absurd hi (i1 s2)
    | blocked => exact ⟨fun s' hs => (by cases hs), fun s' hs => (by cases hs)⟩
    | assertFail => exact ⟨fun s' hs => (by cases hs), fun s' hs => (by cases hs)⟩
    | die => exact ⟨fun s' hs => (by cases hs), fun s' hs => (by cases hs)⟩
    | ub => exact ⟨fun s' hs => (by cases hs), fun s' hs => (by cases hs)⟩
  | throw s1 => exact absurd (wwrite_frame.2 hw).1 (by simp)
  | blocked => exact ⟨fun s' hs => (by cases hs), fun s' hs => (by cases hs)⟩
  | assertFail => exact ⟨fun s' hs => (by cases hs), fun s' hs => (by cases hs)⟩
  | die => exact ⟨fun s' hs => (by cases hs), fun s' hs => (by cases hs)⟩
  | ub => exact ⟨fun s' hs => (by cases hs), fun s' hs => (by cases hs)⟩

theorem read_err {s s' : St} {blk bid : Nat} {u sub : Bool} (hs : read s blk bid u sub = .ok s') : s'.err = s.err := by
  unfold read at hs
  split at hs
  · injection hs with hs; subst hs; rfl
  · split at hs
    · injection hs with hs; subst hs; rfl
    · split at hs
      · cases hs
      · injection hs with hs; subst hs; rfl

theorem read_no_throw {s s' : St} {blk bid : Nat} {u : Bool} : read s blk bid u false ≠ .throw s' := by
  unfold read
  split
  · simp
  · split
    · simp
    · simp

theorem presize_err {s s' : St} {n k : Nat} (hs : presize s n k = .ok s' ∨ presize s n k = .throw s') : s'.err = s.err := by
  unfold presize at hs
  split at hs
  · simp only at hs
    split at hs
    · rcases hs with hs | hs
      · cases hs
      · injection hs with hs; subst hs; rfl
    · rcases hs with hs | hs
      · injection hs with hs; subst hs; rfl
      · cases hs
  · simp only at hs
    split at hs
    · rcases hs with hs | hs <;> cases hs
    · rcases hs with hs | hs
      · injection hs with hs; subst hs; rfl
      · cases hs

theorem destroyLoop_clean {s s' : St} {evs : List (List Ev)} {L : List (Nat × Nat)} (h : s.err = []) (hv : ∀ v ∈ evs, noFail v)
    (hs : destroyLoop s evs L = .ok s') : s'.err = [] ∧ s'.leaked = s.leaked := by
  induction L generalizing s evs with
  | nil =>
    simp only [destroyLoop] at hs
    injection hs with hs; subst hs; exact ⟨h, rfl⟩
  | cons p L ih =>
    obtain ⟨b, r⟩ := p
    have h1 : (events s (evs.headD [])).err = [] := by rw [events_err (headD_noFail hv)]; exact h
    obtain ⟨q', err', hf, _⟩ := events_frame s (evs.headD [])
    simp only [destroyLoop] at hs
    split at hs
    · cases hs
    · rw [if_neg (by rw [not_failed h1]; simp)] at hs
      obtain ⟨a1, a2⟩ := ih (s := { events s (evs.headD []) with deleted := (events s (evs.headD [])).deleted ++ [b] }) h1 (tail_noFail hv) hs
      refine ⟨a1, a2.trans ?_⟩
      rw [hf]

theorem destroy_clean {s s' : St} {e1 e2 : List (List Ev)} {ord : List PEnt} (h : s.err = []) (hv1 : ∀ l ∈ e1, noFail l) (hv2 : ∀ l ∈ e2, noFail l)
    (hs : destroy s e1 e2 ord = .ok s') : s'.err = [] ∧ s'.leaked = s.leaked := by
  obtain ⟨s1, s2, h1, h2, rfl⟩ := destroy_ok hs
  obtain ⟨a1, a2⟩ := destroyLoop_clean (s := { s with deleted := _, wfree := [], wbusy := [] }) h hv1 h1
  unfold destroyP at h2
  split at h2
  · obtain ⟨b1, b2⟩ := destroyLoop_clean (s := { s1 with deleted := _, pfree := [], pfs := 0, pbusy := [] }) a1 hv2 h2
    exact ⟨b1, b2.trans a2⟩
  · cases h2

/-- A clean step from a state without failed requests. -/
theorem clean_step {s s' : St} {op : Op} (h : s.err = []) (hc : clean op) (hs : step s op = .ok s' ∨ step s op = .throw s') :
    s'.err = [] ∧ s'.leaked = s.leaked := by
  cases op with
  | alloc =>
    rcases hs with hs | hs
    · injection hs with hs; subst hs; exact ⟨h, rfl⟩
    · cases hs
  | write blk bid cw sw cp evs sp =>
    obtain ⟨rfl, rfl, hv⟩ := hc
    obtain ⟨w1, w2⟩ := write_clean (blk := blk) (bid := bid) (cw := cw) (cp := cp) h hv
    rcases hs with hs | hs
    · exact ⟨w2 s' hs, (step_leaked rfl).1 hs⟩
    · exact absurd hs (w1 s')
  | hint bid u sub =>
    simp only [clean] at hc
    subst hc
    rcases hs with hs | hs
    · exact ⟨by rw [hint_err (Or.inl hs)]; exact h, (step_leaked rfl).1 hs⟩
    · have := (hint_frame.2 hs).1; cases this
  | read blk bid u sub =>
    simp only [clean] at hc
    subst hc
    rcases hs with hs | hs
    · exact ⟨by rw [read_err hs]; exact h, (step_leaked rfl).1 hs⟩
    · exact absurd hs read_no_throw
  | invalidate bid c evs =>
    obtain ⟨w1, w2⟩ := invalidate_clean (bid := bid) (canc := c) h hc
    rcases hs with hs | hs
    · refine ⟨?_, (step_leaked rfl).1 hs⟩
      simp only [step] at hs
      split at hs
      · rename_i s1 b hi
        injection hs with hs; subst hs; exact w2 _ b hi
      all_goals cases hs
    · simp only [step] at hs
      split at hs
      · cases hs
      · rename_i s1 hi; exact absurd hi (w1 s1)
      all_goals cases hs
  | poll bid =>
    rcases hs with hs | hs
    · simp only [step] at hs
      split at hs
      · injection hs with hs; subst hs; exact ⟨h, rfl⟩
      all_goals cases hs
    · simp only [step] at hs
      split at hs
      · cases hs
      · rename_i s1 hi
        simp only [pollHint] at hi
        split at hi
        · cases hi
        · rw [if_neg (by rw [not_failed h]; simp)] at hi; cases hi
      all_goals cases hs
  | steal evs =>
    obtain ⟨w1, w2⟩ := wsteal_clean h hc
    rcases hs with hs | hs
    · refine ⟨?_, (step_leaked rfl).1 hs⟩
      simp only [step] at hs
      split at hs
      · rename_i s1 p hi
        injection hs with hs; subst hs; exact w2 s1 p hi
      all_goals cases hs
    · simp only [step] at hs
      split at hs
      · cases hs
      · rename_i s1 hi; exact absurd hi (w1 s1)
      all_goals cases hs
  | add blk =>
    rcases hs with hs | hs
    · injection hs with hs; subst hs; exact ⟨h, rfl⟩
    · cases hs
  | stealP =>
    simp only [step] at hs
    split at hs
    · rcases hs with hs | hs <;> cases hs
    · rcases hs with hs | hs
      · injection hs with hs; subst hs; exact ⟨h, rfl⟩
      · cases hs
  | addP blk =>
    rcases hs with hs | hs
    · injection hs with hs; subst hs; exact ⟨h, rfl⟩
    · cases hs
  | resizeW n k evss =>
    simp only [step, wresize] at hs
    split at hs
    · split at hs
      · rcases hs with hs | hs
        · cases hs
        · injection hs with hs; subst hs; exact ⟨h, rfl⟩
      · rcases hs with hs | hs
        · injection hs with hs; subst hs; exact ⟨h, rfl⟩
        · cases hs
    · obtain ⟨w1, w2⟩ := stealN_clean (k := wsize s - n) h hc
      rcases hs with hs | hs
      · refine ⟨w2 s' hs, ?_⟩
        have := (stealN_frame.1 hs).2.2.2.1
        simpa using this
      · exact absurd hs (w1 s')
  | resizeP n k => exact ⟨by rw [presize_err hs]; exact h, presize_leaked hs⟩
  | collect i =>
    simp only [step] at hs
    split at hs
    · rcases hs with hs | hs <;> cases hs
    · split at hs
      · rcases hs with hs | hs <;> cases hs
      · rw [if_neg (by rw [not_failed h]; simp)] at hs
        rcases hs with hs | hs
        · injection hs with hs; subst hs; exact ⟨h, rfl⟩
        · cases hs
  | destroy e1 e2 ord =>
    rcases hs with hs | hs
    · exact destroy_clean h hc.1 hc.2 hs
    · exact absurd hs (destroy_no_throw _ _ _ _ _)
  | ev e =>
    rcases hs with hs | hs
    · injection hs with hs; subst hs
      cases e with
      | fail r => exact absurd rfl (hc r)
      | finish r => exact ⟨h, rfl⟩
    · cases hs

theorem reach_clean {s : St} (h : Reach clean s) : s.err = [] ∧ s.leaked = [] := by
  induction h with
  | start nw np => exact ⟨rfl, rfl⟩
  | ok op _ hc _ hs ih =>
    obtain ⟨a, b⟩ := clean_step ih.1 hc (Or.inl hs)
    exact ⟨a, b.trans ih.2⟩
  | throw op _ hc _ hs ih =>
    obtain ⟨a, b⟩ := clean_step ih.1 hc (Or.inr hs)
    exact ⟨a, b.trans ih.2⟩

/-! ### Destructors -/

theorem destroyLoop_done {s s' : St} {evs : List (List Ev)} {L : List (Nat × Nat)} (hs : destroyLoop s evs L = .ok s')
    (hf : ∀ p ∈ L, p.2 ∉ s'.err) :
    s'.deleted = s.deleted ++ L.map (·.1) ∧ s'.leaked = s.leaked ∧ ∀ p ∈ L, ∀ x ∈ s'.q, x.1 ≠ p.2 := by
  induction L generalizing s evs with
  | nil =>
    simp only [destroyLoop] at hs
    injection hs with hs; subst hs; exact ⟨by simp, rfl, by simp⟩
  | cons p L ih =>
    obtain ⟨b, r⟩ := p
    obtain ⟨q', err', he, hq, _⟩ := events_frame s (evs.headD [])
    simp only [destroyLoop] at hs
    rw [he] at hs
    split at hs
    · cases hs
    · rename_i hp
      split at hs
      · rename_i hfail
        injection hs with hs; subst hs
        have := hf (b, r) List.mem_cons_self
        simp [failed] at hfail
        exact absurd hfail this
      · obtain ⟨a1, a2, a3⟩ := ih hs (fun p hp => hf p (List.mem_cons_of_mem _ hp))
        obtain ⟨_, _, _, _, _, _, _, _, _, hq2, _⟩ := destroy_end hs
        refine ⟨by rw [a1]; simp, a2, fun p hp' x hx => ?_⟩
        rcases List.mem_cons.1 hp' with h1 | h1
        · subst h1
          exact not_pending (s := { s with q := q', err := err' }) (by rw [Bool.not_eq_true] at hp; exact hp) x (hq2 x hx)
        · exact a3 p h1 x hx

theorem destroyLoop_finishes (s : St) (L : List (Nat × Nat)) :
    ∃ s', destroyLoop s (L.map (fun p => [Ev.finish p.2])) L = .ok s' := by
  induction L generalizing s with
  | nil => exact ⟨s, rfl⟩
  | cons p L ih =>
    obtain ⟨b, r⟩ := p
    simp only [destroyLoop, List.map_cons, List.headD_cons, List.tail_cons]
    have : pending (events s [Ev.finish r]) r = false := by
      simp [pending, events, event]
    rw [if_neg (by rw [this]; simp)]
    split
    · exact ⟨_, rfl⟩
    · exact ih _

/-! ### Exceptions -/

theorem failed_mono {s t : St} (h : ∀ r ∈ s.err, r ∈ t.err) {r : Nat} (hf : failed s r = true) : failed t r = true := by
  simp [failed] at *; exact h r hf

theorem scan_threw {s : St} {evs : List (List Ev)} {l : List WEnt} {i : Nat} (h : (scan s evs l i).2.2 = .threw) :
    ∃ e ∈ l, failed (scan s evs l i).1 e.req = true := by
  induction l generalizing s evs i with
  | nil => simp [scan] at h
  | cons e l ih =>
    simp only [scan] at h ⊢
    by_cases hf : failed (events s (evs.headD [])) e.req = true
    · rw [if_pos hf] at h ⊢; exact ⟨e, List.mem_cons_self, hf⟩
    · rw [if_neg hf] at h ⊢
      by_cases hp : pending (events s (evs.headD [])) e.req = true
      · rw [if_pos hp] at h ⊢
        obtain ⟨e', he', h'⟩ := ih h
        exact ⟨e', List.mem_cons_of_mem _ he', h'⟩
      · rw [if_neg hp] at h; cases h

theorem checkBusy_threw {s s' : St} {evs : List (List Ev)} {pre l : List WEnt} (h : checkBusy s evs pre l = .throw s') :
    ∃ e ∈ l, failed s' e.req = true := by
  induction l generalizing s evs pre with
  | nil => cases h
  | cons e l ih =>
    simp only [checkBusy] at h
    split at h
    · rename_i hf
      injection h with h; subst h; exact ⟨e, List.mem_cons_self, hf⟩
    · split at h
      · obtain ⟨e', he', h'⟩ := ih h
        exact ⟨e', List.mem_cons_of_mem _ he', h'⟩
      · obtain ⟨e', he', h'⟩ := ih h
        exact ⟨e', List.mem_cons_of_mem _ he', h'⟩

theorem wsteal_threw {s s' : St} {evs : List (List Ev)} (hs : wsteal s evs = .throw s') :
    s.wfree = [] ∧ ∃ e ∈ s.wbusy, failed s' e.req = true := by
  unfold wsteal at hs
  split at hs
  · cases hs
  · split at hs
    · cases hs
    · rename_i hnone
      refine ⟨List.getLast?_eq_none_iff.1 hnone, ?_⟩
      obtain ⟨q', err', hw, _⟩ := waitAny_spec s evs
      split at hs
      · cases hs
      · rename_i s1 evs1 hwa
        injection hs with hs; subst hs
        unfold waitAny at hwa
        rcases hr : scan s evs s.wbusy 0 with ⟨s2, evs2, sc⟩
        rw [hr] at hwa
        cases sc with
        | none =>
          simp only at hwa
          have := scan_threw (s := events s2 (evs2.headD [])) (evs := evs2.tail) (l := s.wbusy) (i := 0) (by rw [hwa])
          rw [hwa] at this; exact this
        | found i => simp only [Prod.mk.injEq] at hwa; exact absurd hwa.2.2 (by simp)
        | threw =>
          simp only [Prod.mk.injEq] at hwa
          have := scan_threw (s := s) (evs := evs) (l := s.wbusy) (i := 0) (by rw [hr])
          rw [hr] at this
          rw [← hwa.1]; exact this
      · rename_i s1 evs1 i hwa
        rw [hwa] at hw
        simp only at hw
        have hb : s1.wbusy = s.wbusy := by rw [hw]
        split at hs
        · cases hs
        · split at hs
          · cases hs
          · rename_i s2 hc
            injection hs with hs; subst hs
            obtain ⟨e, he, hf⟩ := checkBusy_threw hc
            rw [hb] at he
            exact ⟨e, List.mem_of_mem_eraseIdx he, hf⟩
          all_goals cases hs

/-- The first write of the pool has failed. -/
theorem wsteal_poisoned {s : St} {e : WEnt} {es : List WEnt} (hf : s.wfree = []) (hb : s.wbusy = e :: es) (he : failed s e.req = true)
    (evs : List (List Ev)) : ∃ q' err', wsteal s evs = .throw { s with q := q', err := err' } ∧ (∀ r ∈ s.err, r ∈ err') := by
  obtain ⟨q', err', h1, _, hm⟩ := events_frame s (evs.headD [])
  refine ⟨q', err', ?_, hm⟩
  have hfe : failed (events s (evs.headD [])) e.req = true := failed_mono (by rw [h1]; exact hm) he
  have hsc : scan s evs s.wbusy 0 = (events s (evs.headD []), evs.tail, .threw) := by
    rw [hb]; simp only [scan]; rw [if_pos hfe]
  have hwa : waitAny s evs = (events s (evs.headD []), evs.tail, .threw) := by
    unfold waitAny; rw [hsc]
  unfold wsteal
  rw [if_neg (by simp [wsize, hb]), hf]
  simp only [List.getLast?_nil, hwa]
  rw [h1, hf]

/-- A failed request stays in the prefetch pool. -/
theorem write_poisoned {s : St} {blk bid : Nat} {e : PEnt} {cw : List Nat} {cp sp : Bool} {evs : List Ev}
    (hp : findP s bid = some e) (he : failed s e.req = true) (hd : pending s e.req = false) (hr : e.req < s.nextReq)
    (ha : ¬ ∃ w ∈ s.wbusy, w.bid = some bid ∧ w.blk = blk) :
    ∃ s', write s blk bid cw false cp evs sp = .throw s' ∧ s'.pbusy = s.pbusy ∧ failed s' e.req = true ∧ pending s' e.req = false ∧
      s'.wbusy.length = s.wbusy.length + 1 ∧ s'.uidle = s.uidle.erase blk := by
  have hw : ∃ s1, wwrite s blk bid cw false = .ok s1 ∧ s1.pbusy = s.pbusy ∧ s1.err = s.err ∧ pending s1 e.req = false ∧
      s1.wbusy.length = s.wbusy.length + 1 ∧ s1.uidle = s.uidle.erase blk := by
    unfold wwrite
    rw [if_neg (by simpa using ha)]
    refine ⟨_, rfl, rfl, rfl, ?_, ?_, rfl⟩
    · have h0 := not_pending hd
      have : ¬ pending (submit (dropStale s bid cw) blk) e.req = true := by
        rw [pending_iff]
        rintro ⟨x, hx, hxr⟩
        simp only [submit, dropStale, List.mem_append, List.mem_filter, List.mem_singleton] at hx
        rcases hx with hx | hx
        · exact h0 x hx.1 hxr
        · rw [hx] at hxr; simp only at hxr; omega
      rw [Bool.not_eq_true] at this
      exact this
    · simp [submit, dropStale]
  obtain ⟨s1, hw1, hpb, her, hpd, hlen, hui⟩ := hw
  have hfp : findP s1 bid = some e := by simp only [findP, hpb]; exact hp
  obtain ⟨q', err', h1, hq, hm⟩ := inval_frame s1 e cp evs
  have hi : invalidate s1 bid cp evs = .throw { s1 with q := q', err := err' } := by
    unfold invalidate
    rw [hfp]
    simp only [h1]
    have hnp : ¬ pending { s1 with q := q', err := err' } e.req = true := by
      rw [pending_iff]
      rintro ⟨x, hx, hxr⟩
      exact not_pending hpd x (hq x hx) hxr
    rw [if_neg hnp, if_pos]
    simp only [failed] at he ⊢
    simp only [List.contains_iff_mem] at he ⊢
    exact hm _ (by rw [her]; exact he)
  refine ⟨{ s1 with q := q', err := err' }, ?_, hpb, ?_, ?_, hlen, hui⟩
  · unfold write
    rw [hw1]
    simp only [hi]
  · simp only [failed, List.contains_iff_mem] at he ⊢
    exact hm _ (by rw [her]; exact he)
  · have hnp : ¬ pending { s1 with q := q', err := err' } e.req = true := by
      rw [pending_iff]
      rintro ⟨x, hx, hxr⟩
      exact not_pending hpd x (hq x hx) hxr
    rw [Bool.not_eq_true] at hnp; exact hnp

end Foxxll.PoolFail
