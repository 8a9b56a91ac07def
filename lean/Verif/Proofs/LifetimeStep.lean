import Verif.Proofs.Lifetime
/-
Every step keeps the invariants of `Proofs/Lifetime.lean`.
-/
set_option linter.unusedSimpArgs false
set_option linter.unusedVariables false

namespace Foxxll.Life

variable {fo : Nat → Nat} {s s' : St} {g : Nat → Stg}

def setG (g : Nat → Stg) (r : Nat) (x : Stg) : Nat → Stg := fun r' => if r' = r then x else g r'

/-- The phases, files and kinds of all requests are the same. -/
def Still (s s' : St) : Prop :=
  ∀ r, (s'.reqs r).phase = (s.reqs r).phase ∧ (s'.reqs r).file = (s.reqs r).file ∧ (s'.reqs r).aio = (s.reqs r).aio

theorem pcOk_still {reqs reqs' : Nat → Req}
    (h : ∀ r, (reqs' r).phase = (reqs r).phase ∧ (reqs' r).file = (reqs r).file ∧ (reqs' r).aio = (reqs r).aio) {p : Pc} (hp : pcOk fo reqs p) : pcOk fo reqs' p := by
  cases p with
  | comp r k w =>
    simp only [pcOk, (h r).2.2] at hp ⊢
    refine ⟨?_, hp.2⟩
    have := hp.1
    cases k <;> simp only [stepOk, (h r).1, (h r).2.1] at this ⊢ <;> exact this
  | drop r w => cases w <;> simp only [pcOk, (h r).1, (h r).2.1, (h r).2.2] at hp ⊢ <;> exact hp
  | _ => simp only [pcOk] at hp ⊢ <;> (try simp only [(h _).1, (h _).2.1, (h _).2.2]) <;> exact hp

theorem pcOk_on {reqs reqs' : Nat → Req} {p : Pc}
    (h : ∀ r, owned p = some r → (reqs' r).phase = (reqs r).phase ∧ (reqs' r).file = (reqs r).file ∧ (reqs' r).aio = (reqs r).aio) (hp : pcOk fo reqs p) :
    pcOk fo reqs' p := by
  cases p with
  | comp r k w =>
    obtain ⟨e1, e2, e3⟩ := h r rfl
    simp only [pcOk, e3] at hp ⊢
    refine ⟨?_, hp.2⟩
    have := hp.1
    cases k <;> simp only [stepOk, e1, e2] at this ⊢ <;> exact this
  | drop r w =>
    cases w <;> simp only [pcOk] at hp ⊢
    have h := h r rfl
    rw [h.1, h.2.1, h.2.2]; exact hp
  | serve r => have h := h r rfl; simp only [pcOk, h.1, h.2.1, h.2.2] at hp ⊢; exact hp
  | post r => have h := h r rfl; simp only [pcOk, h.1, h.2.1, h.2.2] at hp ⊢; exact hp
  | _ => trivial

theorem C.still (c : C fo s) (h : Still s s') (h1 : s'.ids = s.ids) (h2 : s'.nref = s.nref) (h3 : s'.falive = s.falive) (h4 : s'.waited = s.waited)
    (h5 : s'.warned = s.warned) : C fo s' where
  nref := by
    intro f
    rw [h2, h1, c.nref f]
    congr 1
    funext r
    rw [(h r).2.1]
  wt := by intro r; rw [h4, h1, (h r).1]; exact c.wt r
  del := by intro f; rw [h3, h1]; intro hf r hr e; rw [(h r).1]; exact c.del f hf r hr e
  warn := by rw [h5]; exact c.warn

/-- Adding a pointer of a client. -/
theorem B.addClient (b : B fo s g) {t r : Nat} : B fo (s.addPtr (.client t r)) g := by
  have hst : Still s (s.addPtr (.client t r)) := by
    intro r'
    simp only [St.addPtr, St.req, upd, Holder.req]
    split <;> simp_all
  constructor
  · intro r'; simpa [St.addPtr, St.req] using b.q r'
  · exact b.fl
  · exact b.flnd
  · exact b.ow
  · intro t' r'; simpa [St.addPtr, St.req] using b.lc t' r'
  · intro r'; simpa [St.addPtr, St.req] using b.ker r'
  · intro t' r' h; exact List.mem_cons_of_mem _ (b.cl t' r' h)
  · intro r' hr hg; rw [(hst r').1, (hst r').2.1]; exact b.st1 r' hr hg
  · intro r' hr hg; rw [(hst r').1, (hst r').2.1]; exact b.st2 r' hr hg
  · intro r' hr hg; rw [(hst r').2.2]; exact b.fa r' hr hg
  · intro t'; exact pcOk_still hst (b.pc t')

/-- Removing a pointer of an idle client. -/
theorem B.rmClient (b : B fo s g) {t r : Nat} (hi : s.thr t = .idle) (h1 : s'.ids = s.ids) (h2 : s'.ptrs = s.ptrs.erase (.client t r)) (h3 : s'.thr = s.thr)
    (h4 : s'.flying = s.flying) (hst : Still s s') : B fo s' g := by
  have hm : ∀ x, x ≠ .client t r → (x ∈ s'.ptrs ↔ x ∈ s.ptrs) := by
    intro x hx
    rw [h2]
    exact List.mem_erase_of_ne hx
  constructor
  · intro r'; rw [hm _ (by simp), h1]; exact b.q r'
  · rw [h4, h1]; exact b.fl
  · rw [h4]; exact b.flnd
  · rw [h3, h1]; exact b.ow
  · intro t' r'; rw [hm _ (by simp), h3]; exact b.lc t' r'
  · intro r'; rw [hm _ (by simp), h1, h3]; exact b.ker r'
  · intro t' r' h
    rw [h3] at h
    rw [hm _ ?_]
    · exact b.cl t' r' h
    · intro e
      injection e with e1 e2
      subst e1
      rw [hi] at h
      cases h
  · intro r' hr hg; rw [h1] at hr; rw [(hst r').1, (hst r').2.1]; exact b.st1 r' hr hg
  · intro r' hr hg; rw [h1] at hr; rw [(hst r').1, (hst r').2.1]; exact b.st2 r' hr hg
  · intro r' hr hg; rw [h1] at hr; rw [(hst r').2.2]; exact b.fa r' hr hg
  · intro t'; rw [h3]; exact pcOk_still hst (b.pc t')

/-- A thread changes its place; the library's pointers, stages and phases change accordingly.  The conditions concern only
the request `r` and the thread `t`. -/
theorem B.move (b : B fo s g) {t r : Nat} {p : Pc} {x : Stg} (h1 : s'.ids = s.ids) (h3 : s'.thr = upd s.thr t p) (hr : r ∈ s.ids)
    (hold : ∀ r', r' ≠ r → owned (s.thr t) ≠ some r' ∧ localOf (s.thr t) ≠ some r' ∧ kernelOf (s.thr t) ≠ some r')
    (hnew : ∀ r', r' ≠ r → owned p ≠ some r' ∧ localOf p ≠ some r' ∧ kernelOf p ≠ some r' ∧ cancelOf p ≠ some r')
    (hoth : ∀ t', t' ≠ t → x ≠ .own t' ∧ g r ≠ .own t')
    (hq : .queue r ∈ s'.ptrs ↔ x = .queued) (hf : r ∈ s'.flying ↔ x = .fly) (hfn : s'.flying.Nodup)
    (ho : owned p = some r ↔ x = .own t) (hl : .loc t r ∈ s'.ptrs ↔ localOf p = some r)
    (hk : .kernel r ∈ s'.ptrs ↔ x = .fly ∨ kernelOf p = some r)
    (hc : cancelOf p = some r → .client t r ∈ s.ptrs)
    (hst1 : x = .queued ∨ x = .fly → (s'.reqs r).phase = .op ∧ (s'.reqs r).file = some (fo r))
    (hst2 : x = .fin → (s'.reqs r).phase = .ready ∧ (s'.reqs r).file = none)
    (hfa : x = .fly → (s'.reqs r).aio = true) (hpc : pcOk fo s'.reqs p)
    (hm : ∀ y, y ≠ .queue r → y ≠ .loc t r → y ≠ .kernel r → (y ∈ s'.ptrs ↔ y ∈ s.ptrs))
    (hfm : ∀ y, y ≠ r → (y ∈ s'.flying ↔ y ∈ s.flying))
    (hreq : ∀ y, y ≠ r → (s'.reqs y).phase = (s.reqs y).phase ∧ (s'.reqs y).file = (s.reqs y).file ∧ (s'.reqs y).aio = (s.reqs y).aio) : B fo s' (setG g r x) := by
  have hkr : ∀ t', t' ≠ t → ∀ y, y = r → owned (s.thr t') ≠ some y := by
    intro t' ht y hy ho'
    subst hy
    have := ((b.ow t' y).1 ho').2
    exact (hoth t' ht).2 this
  have hko : ∀ q y, kernelOf q = some y → owned q = some y := by
    intro q y hq
    unfold kernelOf at hq
    split at hq <;> (try cases hq) <;> rfl
  have hreqs : ∀ t', t' ≠ t → pcOk fo s'.reqs (s.thr t') := by
    intro t' ht
    refine pcOk_on (fun y hy => hreq y ?_) (b.pc t')
    rintro rfl
    exact hkr t' ht y rfl hy
  constructor
  · intro y
    rw [h1]
    by_cases e : y = r
    · subst e; simp [setG, hr, hq]
    · rw [hm _ (by simpa using e) (by simp) (by simp)]; simpa [setG, e] using b.q y
  · intro y
    rw [h1]
    by_cases e : y = r
    · subst e; simp [setG, hr, hf]
    · rw [hfm y e]; simpa [setG, e] using b.fl y
  · exact hfn
  · intro t' y
    rw [h1, h3]
    by_cases et : t' = t
    · subst et
      simp only [upd, if_true]
      by_cases e : y = r
      · subst e; simp [setG, hr, ho]
      · have h5 := (hnew y e).1
        have h6 := (hold y e).1
        have h7 := b.ow t' y
        simp only [setG, if_neg e]
        constructor
        · intro h; exact absurd h h5
        · intro h; exact absurd (h7.2 h) h6
    · simp only [upd, if_neg et]
      by_cases e : y = r
      · subst e
        have := (hoth t' et).1
        have := hkr t' et y rfl
        simp [setG, hr, *]
      · simpa [setG, e] using b.ow t' y
  · intro t' y
    rw [h3]
    by_cases et : t' = t
    · subst et
      simp only [upd, if_true]
      by_cases e : y = r
      · subst e; exact hl
      · rw [hm _ (by simp) (by simpa using e) (by simp), b.lc t' y]
        have := (hnew y e).2.1
        have := (hold y e).2.1
        simp [*]
    · simp only [upd, if_neg et]
      rw [hm _ (by simp) (by simp [et]) (by simp)]
      exact b.lc t' y
  · intro y
    rw [h1, h3]
    by_cases e : y = r
    · subst e
      rw [hk]
      simp only [setG, if_true, hr, true_and]
      constructor
      · rintro (h | h)
        · exact .inl h
        · exact .inr ⟨t, by simpa [upd] using h⟩
      · rintro (h | ⟨t', h⟩)
        · exact .inl h
        · by_cases et : t' = t
          · subst et; right; simpa [upd] using h
          · simp only [upd, if_neg et] at h
            exact absurd (hko _ _ h) (hkr t' et y rfl)
    · rw [hm _ (by simp) (by simp) (by simpa using e), b.ker y]
      simp only [setG, if_neg e]
      constructor
      · rintro (h | ⟨t', h⟩)
        · exact .inl h
        · refine .inr ⟨t', ?_⟩
          by_cases et : t' = t
          · subst et; exact absurd h (hold y e).2.2
          · simpa [upd, et] using h
      · rintro (h | ⟨t', h⟩)
        · exact .inl h
        · refine .inr ⟨t', ?_⟩
          by_cases et : t' = t
          · subst et; simp only [upd, if_true] at h; exact absurd h (hnew y e).2.2.1
          · simpa [upd, et] using h
  · intro t' y h
    rw [h3] at h
    rw [hm _ (by simp) (by simp) (by simp)]
    by_cases et : t' = t
    · subst et
      simp only [upd, if_true] at h
      by_cases e : y = r
      · subst e; exact hc h
      · exact absurd h (hnew y e).2.2.2
    · simp only [upd, if_neg et] at h
      exact b.cl t' y h
  · intro y hy hg
    rw [h1] at hy
    by_cases e : y = r
    · subst e; simp only [setG, if_true] at hg; exact hst1 hg
    · simp only [setG, if_neg e] at hg; rw [(hreq y e).1, (hreq y e).2.1]; exact b.st1 y hy hg
  · intro y hy hg
    rw [h1] at hy
    by_cases e : y = r
    · subst e; simp only [setG, if_true] at hg; exact hst2 hg
    · simp only [setG, if_neg e] at hg; rw [(hreq y e).1, (hreq y e).2.1]; exact b.st2 y hy hg
  · intro y hy hg
    rw [h1] at hy
    by_cases e : y = r
    · subst e; simp only [setG, if_true] at hg; exact hfa hg
    · simp only [setG, if_neg e] at hg; rw [(hreq y e).2.2]; exact b.fa y hy hg
  · intro t'
    rw [h3]
    by_cases et : t' = t
    · subst et; simpa [upd] using hpc
    · simpa [upd, et] using hreqs t' et

structure I (fo : Nat → Nat) (s : St) (g : Nat → Stg) : Prop where
  a : A s
  b : B fo s g
  c : C fo s

/-- What a step of a legal client may give: the null pointer is dereferenced only by `io_type` and `cancel`. -/
def Good (fo : Nat → Nat) (s : St) (op : Op) : Res St → Prop
  | .ok s' => ∃ g', I fo s' g'
  | .no => True
  | .null => (∃ t r, op = .ioType t r ∧ (s.reqs r).file = none) ∨ (∃ t r, op = .work t ∧ s.thr t = .cancel1 r ∧ (s.reqs r).file = none)
  | .uaf => False
  | .fileGone => False
  | .assertFail => False

theorem still_of (h : ∀ r, s'.reqs r = s.reqs r) : Still s s' := fun r => by rw [h r]; exact ⟨rfl, rfl, rfl⟩

theorem still_add {h : Holder} : Still s (s.addPtr h) := by
  intro r'
  simp only [St.addPtr, St.req, upd]
  split <;> simp_all

theorem still_dec {h : Holder} : Still s (s.dec h) := by
  intro r'
  simp only [St.dec, St.req, upd]
  split <;> simp_all

/-- The file of an unfinished request exists. -/
theorem I.falive (i : I fo s g) {r : Nat} (hr : r ∈ s.ids) (hp : (s.reqs r).phase ≠ .ready) : s.falive (fo r) = true := by
  cases h : s.falive (fo r) with
  | true => rfl
  | false => exact absurd (i.c.del _ h r hr rfl) hp

/-- `file_->…` of a request with a file. -/
theorem I.useFile (i : I fo s g) {r : Nat} (hr : r ∈ s.ids) (k : Nat → Res St) :
    s.file (s.reqs r) k = if (s.reqs r).file = none then .null else k (fo r) := by
  unfold St.file
  obtain ⟨h1, h2⟩ := i.b.file hr
  rcases h2 with h2 | h2
  · rw [h2]; rfl
  · rw [h2]
    have hp : (s.reqs r).phase ≠ .ready := by intro h; rw [h1 h] at h2; cases h2
    simp [i.falive hr hp]

theorem C.set (c : C fo s) {r : Nat} (hr : (s.reqs r).phase ≠ .ready) (h1 : s'.ids = s.ids) (h3 : s'.falive = s.falive) (h4 : s'.waited = s.waited)
    (h5 : s'.warned = s.warned) (hreq : ∀ y, y ≠ r → (s'.reqs y).phase = (s.reqs y).phase)
    (hn : ∀ f, s'.nref f = s.ids.countP (fun r => (s'.reqs r).file == some f)) : C fo s' where
  nref := by rw [h1]; exact hn
  wt := by
    intro y hy
    rw [h4] at hy
    rw [h1]
    by_cases e : y = r
    · subst e; exact absurd (c.wt y hy).2 hr
    · rw [hreq y e]; exact c.wt y hy
  del := by
    intro f hf y hy e'
    rw [h3] at hf
    rw [h1] at hy
    by_cases e : y = r
    · subst e; exact absurd (c.del f hf y hy e') hr
    · rw [hreq y e]; exact c.del f hf y hy e'
  warn := by rw [h5]; exact c.warn

theorem countP_one {l : List Nat} (hn : l.Nodup) {r : Nat} (hr : r ∈ l) {p p' : Nat → Bool} (h : ∀ y, y ≠ r → p' y = p y) (h1 : p r = true) (h2 : p' r = false) :
    l.countP p' = l.countP p - 1 := by
  induction l with
  | nil => cases hr
  | cons x l ih =>
    rw [List.nodup_cons] at hn
    rw [List.countP_cons, List.countP_cons]
    rcases List.mem_cons.1 hr with rfl | hr'
    · have : l.countP p' = l.countP p := by
        apply List.countP_congr
        intro y hy
        have : y ≠ r := fun e => hn.1 (e ▸ hy)
        rw [h y this]
      simp [h1, h2, this]
    · have hx : x ≠ r := fun e => hn.1 (e ▸ hr')
      rw [h x hx, ih hn.2 hr']
      have : 0 < l.countP p := List.countP_pos_iff.2 ⟨r, hr', h1⟩
      omega

/-! ### The steps of clients -/

theorem good_submit (i : I fo s g) {t r f : Nat} {aio : Bool} (hl : s.falive f = true) (hf : fo r = f) (hr : r ∉ s.ids) :
    Good fo s (.submit t r f aio false) (submit s t r f aio false) := by
  have hk : ∀ h ∈ s.ptrs, h.req ≠ r := fun h hh e => hr (e ▸ i.a.known h hh)
  have hown : ∀ t', owned (s.thr t') ≠ some r := fun t' h => hr ((i.b.ow t' r).1 h).1
  have hloc : ∀ t', localOf (s.thr t') ≠ some r := fun t' h => hk _ ((i.b.lc t' r).2 h) rfl
  have hker : ∀ t', kernelOf (s.thr t') ≠ some r := fun t' h => hk _ ((i.b.ker r).2 (.inr ⟨t', h⟩)) rfl
  have hcan : ∀ t', cancelOf (s.thr t') ≠ some r := fun t' h => hk _ (i.b.cl t' r h) rfl
  have hreq : ∀ y, y ∈ s.ids → y ≠ r := fun y hy e => hr (e ▸ hy)
  have hsub : ∃ s', submit s t r f aio false = .ok s' ∧ s'.ids = r :: s.ids ∧ s'.ptrs = .queue r :: .client t r :: s.ptrs ∧ s'.thr = s.thr ∧ s'.flying = s.flying ∧
      s'.nref = upd s.nref f (s.nref f + 1) ∧ s'.falive = s.falive ∧ s'.waited = s.waited ∧ s'.warned = s.warned ∧
      s'.reqs r = { refs := 2, alive := true, phase := .op, file := some f, aio := aio } ∧ ∀ y, y ≠ r → s'.reqs y = s.reqs y := by
    unfold submit
    rw [if_pos hl]
    simp only [Bool.false_eq_true, if_false]
    refine ⟨_, rfl, rfl, rfl, rfl, rfl, rfl, rfl, rfl, rfl, ?_, ?_⟩
    · simp [St.addPtr, St.req, upd, Holder.req]
    · intro y hy
      simp [St.addPtr, St.req, upd, Holder.req, hy]
  obtain ⟨s', hs', h1, h2, h3, h4, h5, h6, h7, h8, h9, h10⟩ := hsub
  rw [hs']
  have hcase : ∀ y, y ∈ s'.ids → y = r ∨ (y ≠ r ∧ y ∈ s.ids) := by
    intro y hy
    rw [h1] at hy
    rcases List.mem_cons.1 hy with h | h
    · exact .inl h
    · exact .inr ⟨hreq y h, h⟩
  refine ⟨setG g r .queued, ?_, ?_, ?_⟩
  · constructor
    · rw [h1]; exact List.nodup_cons.2 ⟨hr, i.a.nd⟩
    · intro h hh
      rw [h2] at hh
      rw [h1]
      simp only [List.mem_cons] at hh ⊢
      rcases hh with rfl | rfl | hh
      · exact .inl rfl
      · exact .inl rfl
      · exact .inr (i.a.known h hh)
    · intro y hy
      rw [h2]
      rw [List.countP_cons, List.countP_cons, show (Holder.queue r).req = r from rfl, show (Holder.client t r).req = r from rfl]
      rcases hcase y hy with rfl | ⟨e, hy'⟩
      · have : s.ptrs.countP (fun h => h.req == y) = 0 := List.countP_eq_zero.2 (fun h hh => by simpa using hk h hh)
        simp [this, h9]
      · have e2 : (r == y) = false := by simpa using fun x => e x.symm
        simp [h10 y e, e2, i.a.cnt y hy']
    · intro h hh
      have := i.a.one h hh
      rw [h2]
      simp only [List.count_cons]
      have hc : (Holder.client t r == h) = false := by
        cases h <;> simp [Holder.isClient] at hh ⊢
      simp only [hc, Bool.false_eq_true, if_false, Nat.add_zero]
      split
      · rename_i e
        have e : Holder.queue r = h := by simpa using e
        subst e
        have : Holder.queue r ∉ s.ptrs := fun h => hk _ h rfl
        rw [List.count_eq_zero_of_not_mem this]; omega
      · omega
    · intro y hy hne
      rcases hcase y hy with rfl | ⟨e, hy'⟩
      · rw [h9]
      · rw [h10 y e] at hne ⊢; exact i.a.al y hy' hne
    · intro y hy ha hl'
      rcases hcase y hy with rfl | ⟨e, hy'⟩
      · rw [h9]; simp
      · rw [h10 y e] at ha hl' ⊢; exact i.a.al2 y hy' ha hl'
  · constructor
    · intro y
      rw [h1, h2]
      simp only [List.mem_cons, setG, Holder.queue.injEq, reduceCtorEq, false_or]
      by_cases e : y = r
      · subst e; simp
      · simp only [e, false_or, if_false]; exact i.b.q y
    · intro y
      rw [h1, h4]
      simp only [List.mem_cons, setG]
      by_cases e : y = r
      · subst e
        simp only [true_or, if_true, true_and, reduceCtorEq, iff_false]
        intro h
        exact hr ((i.b.fl y).1 h).1
      · simp only [e, false_or, if_false]; exact i.b.fl y
    · rw [h4]; exact i.b.flnd
    · intro t' y
      rw [h1, h3]
      simp only [List.mem_cons, setG]
      by_cases e : y = r
      · subst e; simp [hown t']
      · simp only [e, false_or, if_false]; exact i.b.ow t' y
    · intro t' y
      rw [h2, h3]
      simp only [List.mem_cons, reduceCtorEq, false_or]
      exact i.b.lc t' y
    · intro y
      rw [h1, h2, h3]
      simp only [List.mem_cons, reduceCtorEq, false_or, setG]
      by_cases e : y = r
      · subst e
        have : Holder.kernel y ∉ s.ptrs := fun h => hk _ h rfl
        simp [this, hker]
      · simp only [e, false_or, if_false]; exact i.b.ker y
    · intro t' y h
      rw [h3] at h
      rw [h2]
      simp only [List.mem_cons]
      exact .inr (.inr (i.b.cl t' y h))
    · intro y hy hg
      rcases hcase y hy with rfl | ⟨e, hy'⟩
      · rw [h9]; simp [hf]
      · simp only [setG, if_neg e] at hg
        rw [h10 y e]; exact i.b.st1 y hy' hg
    · intro y hy hg
      rcases hcase y hy with rfl | ⟨e, hy'⟩
      · simp [setG] at hg
      · simp only [setG, if_neg e] at hg
        rw [h10 y e]; exact i.b.st2 y hy' hg
    · intro y hy hg
      rcases hcase y hy with rfl | ⟨e, hy'⟩
      · simp [setG] at hg
      · simp only [setG, if_neg e] at hg
        rw [h10 y e]; exact i.b.fa y hy' hg
    · intro t'
      have hp := i.b.pc t'
      have ho := hown t'
      rw [h3]
      cases hthr : s.thr t' with
      | drop y w =>
        rw [hthr] at hp ho
        cases w <;> simp only [owned, ne_eq, Option.some.injEq] at ho <;> simp only [pcOk] at hp ⊢
        simp only [h10 y ho]; exact hp
      | idle => trivial
      | cancel1 y => trivial
      | cancel2 y => trivial
      | _ => rw [hthr] at hp ho; simp only [owned, ne_eq, Option.some.injEq] at ho; simp only [pcOk, h10 _ ho] at hp ⊢; exact hp
  · constructor
    · intro f'
      rw [h1, h5, List.countP_cons, h9]
      have h11 : s.ids.countP (fun y => (s'.reqs y).file == some f') = s.ids.countP (fun y => (s.reqs y).file == some f') := by
        apply List.countP_congr
        intro y hy
        rw [h10 y (hreq y hy)]
      rw [h11, ← i.c.nref f']
      simp only [upd]
      by_cases e : f' = f
      · subst e; simp
      · have e2 : ((some f : Option Nat) == some f') = false := by simpa using fun x => e x.symm
        simp [e, e2]
    · intro y hy
      rw [h7] at hy
      have := i.c.wt y hy
      rw [h1, h10 y (hreq y this.1)]
      exact ⟨List.mem_cons_of_mem _ this.1, this.2⟩
    · intro f' hf' y hy e
      rw [h6] at hf'
      rcases hcase y hy with rfl | ⟨e2, hy'⟩
      · rw [← e, hf, hl] at hf'
        cases hf'
      · rw [h10 y e2]; exact i.c.del f' hf' y hy' e
    · rw [h8]; exact i.c.warn

theorem good_copy (i : I fo s g) {t t' r : Nat} (h : .client t r ∈ s.ptrs) : Good fo s (.copy t t' r) (.ok (s.addPtr (.client t' r))) :=
  have hr : r ∈ s.ids := i.a.known _ h
  have hp : (s.reqs r).refs ≠ 0 := i.a.pos h
  ⟨g, i.a.add (h := .client t' r) hr hp (.inl rfl), i.b.addClient, i.c.still still_add rfl rfl rfl rfl rfl⟩

theorem good_drop (i : I fo s g) {t r : Nat} (hi : s.thr t = .idle) (h : .client t r ∈ s.ptrs) : Good fo s (.drop t r) (s.rmPtr (.client t r)) := by
  obtain ⟨s', hs⟩ := rm_ok i.a i.b h (by
    intro hp
    obtain ⟨h', g1, g2, g3⟩ := i.b.busy (i.a.known _ h) (by rw [hp]; simp)
    refine ⟨h', g1, ?_, g2⟩
    rcases g3 with rfl | rfl | ⟨t', rfl, _⟩ <;> simp)
  rw [hs]
  obtain ⟨a, h1, h2, h3, h4, h5, h6, h7, h8, h9⟩ := i.a.rm h hs
  exact ⟨g, a, i.b.rmClient hi h1 h2 h3 h4 h9, i.c.still h9 h1 h5 h6 h7 h8⟩

theorem use_of (i : I fo s g) {h : Holder} (hh : h ∈ s.ptrs) (k : Req → Res St) : s.use h.req k = k (s.reqs h.req) := by
  unfold St.use
  rw [if_pos (i.a.alive hh)]

theorem good_wait (i : I fo s g) {t r : Nat} (h : .client t r ∈ s.ptrs) :
    Good fo s (.wait t r) (s.use r (fun q => if q.phase = .ready then .ok { s with waited := r :: s.waited } else .no)) := by
  rw [show s.use r _ = _ from use_of i h _]
  split
  · rename_i hp
    refine ⟨g, i.a.congr rfl rfl (fun _ => ⟨rfl, rfl, rfl⟩), ⟨i.b.q, i.b.fl, i.b.flnd, i.b.ow, i.b.lc, i.b.ker, i.b.cl, i.b.st1, i.b.st2, i.b.fa, i.b.pc⟩,
      ⟨i.c.nref, ?_, i.c.del, i.c.warn⟩⟩
    intro y hy
    rcases List.mem_cons.1 hy with rfl | hy
    · exact ⟨i.a.known _ h, hp⟩
    · exact i.c.wt y hy
  · trivial

theorem good_poll (i : I fo s g) {t r : Nat} {b : Bool} (h : .client t r ∈ s.ptrs) :
    Good fo s (.poll t r b) (s.use r (fun q => if b = decide (q.phase ≠ .op) then .ok { s with polled := if b then r :: s.polled else s.polled } else .no)) := by
  rw [show s.use r _ = _ from use_of i h _]
  split
  · exact ⟨g, i.a.congr rfl rfl (fun _ => ⟨rfl, rfl, rfl⟩), ⟨i.b.q, i.b.fl, i.b.flnd, i.b.ow, i.b.lc, i.b.ker, i.b.cl, i.b.st1, i.b.st2, i.b.fa, i.b.pc⟩,
      ⟨i.c.nref, i.c.wt, i.c.del, i.c.warn⟩⟩
  · trivial

theorem good_ioType (i : I fo s g) {t r : Nat} (h : .client t r ∈ s.ptrs) : Good fo s (.ioType t r) (s.use r (fun q => s.file q (fun _ => .ok s))) := by
  have hr : r ∈ s.ids := i.a.known _ h
  rw [show s.use r _ = _ from use_of i h _, show (Holder.client t r).req = r from rfl, i.useFile hr]
  split
  · rename_i hp
    exact .inl ⟨t, r, rfl, hp⟩
  · exact ⟨g, i⟩

theorem pcOk_none {reqs : Nat → Req} {p : Pc} (h : owned p = none) : pcOk fo reqs p := by
  cases p with
  | drop r w => cases w <;> simp [owned] at h <;> trivial
  | _ => first | trivial | (simp [owned] at h)

/-- A thread changes its place without owning a request. -/
theorem B.side (b : B fo s g) {t : Nat} {p : Pc} (h1 : s'.ids = s.ids) (h3 : s'.thr = upd s.thr t p) (h4 : s'.flying = s.flying)
    (o1 : owned (s.thr t) = none) (k1 : kernelOf (s.thr t) = none) (o2 : owned p = none) (k2 : kernelOf p = none)
    (hl : ∀ r, .loc t r ∈ s'.ptrs ↔ localOf p = some r) (hc : ∀ r, cancelOf p = some r → .client t r ∈ s.ptrs)
    (hm : ∀ y, (∀ r, y ≠ .loc t r) → (y ∈ s'.ptrs ↔ y ∈ s.ptrs)) (hst : Still s s') : B fo s' g := by
  constructor
  · intro y; rw [hm _ (by simp), h1]; exact b.q y
  · rw [h4, h1]; exact b.fl
  · rw [h4]; exact b.flnd
  · intro t' y
    rw [h1, h3, ← b.ow t' y]
    by_cases e : t' = t
    · subst e; simp [upd, o1, o2]
    · simp [upd, e]
  · intro t' y
    rw [h3]
    by_cases e : t' = t
    · subst e; simp only [upd, if_true]; exact hl y
    · rw [hm _ (by simp [e])]; simp only [upd, if_neg e]; exact b.lc t' y
  · intro y
    rw [hm _ (by simp), h1, h3, b.ker y]
    have : (∃ t', kernelOf (s.thr t') = some y) ↔ ∃ t', kernelOf (upd s.thr t p t') = some y := by
      constructor
      · rintro ⟨t', h⟩
        refine ⟨t', ?_⟩
        have e : t' ≠ t := by rintro rfl; rw [k1] at h; cases h
        simpa [upd, e] using h
      · rintro ⟨t', h⟩
        refine ⟨t', ?_⟩
        have e : t' ≠ t := by rintro rfl; simp [upd, k2] at h
        simpa [upd, e] using h
    rw [this]
  · intro t' y h
    rw [h3] at h
    rw [hm _ (by simp)]
    by_cases e : t' = t
    · subst e; simp only [upd, if_true] at h; exact hc y h
    · simp only [upd, if_neg e] at h; exact b.cl t' y h
  · intro y hy hg; rw [h1] at hy; rw [(hst y).1, (hst y).2.1]; exact b.st1 y hy hg
  · intro y hy hg; rw [h1] at hy; rw [(hst y).1, (hst y).2.1]; exact b.st2 y hy hg
  · intro y hy hg; rw [h1] at hy; rw [(hst y).2.2]; exact b.fa y hy hg
  · intro t'
    rw [h3]
    by_cases e : t' = t
    · subst e; simp only [upd, if_true]; exact pcOk_none o2
    · simp only [upd, if_neg e]; exact pcOk_still hst (b.pc t')

theorem good_cancel (i : I fo s g) {t r : Nat} (hi : s.thr t = .idle) (h : .client t r ∈ s.ptrs) :
    Good fo s (.cancel t r) (s.use r (fun q => if q.file = none then .ok s else .ok (s.pc t (.cancel1 r)))) := by
  rw [show s.use r _ = _ from use_of i h _]
  split
  · exact ⟨g, i⟩
  · refine ⟨g, i.a.congr rfl rfl (fun _ => ⟨rfl, rfl, rfl⟩), ?_, i.c.still (still_of fun _ => rfl) rfl rfl rfl rfl rfl⟩
    refine i.b.side rfl rfl rfl (by rw [hi]; rfl) (by rw [hi]; rfl) rfl rfl ?_ ?_ (fun _ _ => Iff.rfl) (still_of fun _ => rfl)
    · intro y
      have := i.b.lc t y
      rw [hi] at this
      simpa [localOf, St.pc] using this
    · intro y hy
      simp only [cancelOf, Option.some.injEq] at hy
      subst hy
      exact h

/-! ### The steps of the library -/

/-- A thread that owns no request and has no local pointer. -/
theorem idle_free (i : I fo s g) {t : Nat} (hi : s.thr t = .idle) :
    ∀ r, owned (s.thr t) ≠ some r ∧ localOf (s.thr t) ≠ some r ∧ kernelOf (s.thr t) ≠ some r := by
  intro r; rw [hi]; simp [owned, localOf, kernelOf]

theorem good_event (i : I fo s g) {t r : Nat} (hi : s.thr t = .idle) (h : r ∈ s.flying) :
    Good fo s (.event t r) (.ok { s.pc t (.comp r .setDone .aio) with flying := s.flying.erase r }) := by
  obtain ⟨hr, hg⟩ := (i.b.fl r).1 h
  obtain ⟨hp, hf⟩ := i.b.st1 r hr (.inr hg)
  have hk := (i.b.ker r).2 (.inl ⟨hr, hg⟩)
  have hl : Holder.loc t r ∉ s.ptrs := by rw [i.b.lc t r, hi]; simp [localOf]
  have hq : Holder.queue r ∉ s.ptrs := by rw [i.b.q r, hg]; simp
  refine ⟨setG g r (.own t), i.a.congr rfl rfl (fun _ => ⟨rfl, rfl, rfl⟩), ?_, i.c.still (still_of fun _ => rfl) rfl rfl rfl rfl rfl⟩
  refine i.b.move (t := t) (r := r) (p := .comp r .setDone .aio) (x := .own t) rfl rfl hr (fun r' _ => idle_free i hi r') ?_ ?_ ?_ ?_ ?_ ?_ ?_ ?_ ?_ ?_ ?_ ?_ ?_ ?_ ?_ ?_
  · intro r' hr'; simp [owned, localOf, kernelOf, cancelOf]; omega
  · intro t' ht; rw [hg]; simp; omega
  · simpa [St.pc] using hq
  · simp [St.pc, List.Nodup.mem_erase_iff i.b.flnd]
  · exact i.b.flnd.erase r
  · simp [owned]
  · simpa [St.pc, localOf] using hl
  · simpa [St.pc, kernelOf] using hk
  · simp [cancelOf]
  · simp
  · simp
  · simp
  · exact ⟨⟨hp, hf⟩, fun _ => i.b.fa r hr hg⟩
  · intro y _ _ _; exact Iff.rfl
  · intro y hy; simp [St.pc, List.Nodup.mem_erase_iff i.b.flnd, hy]
  · intro y hy; exact ⟨rfl, rfl, rfl⟩

theorem good_take (i : I fo s g) {t r : Nat} (hi : s.thr t = .idle) (h : .queue r ∈ s.ptrs) : Good fo s (.take t r) (take s t r) := by
  obtain ⟨hr, hg⟩ := (i.b.q r).1 h
  obtain ⟨hp, hf⟩ := i.b.st1 r hr (.inl hg)
  have hl : Holder.loc t r ∉ s.ptrs := by rw [i.b.lc t r, hi]; simp [localOf]
  have hk : Holder.kernel r ∉ s.ptrs := by
    rw [i.b.ker r, hg]
    rintro (⟨_, h⟩ | ⟨t', h⟩)
    · cases h
    · have ho : owned (s.thr t') = some r := by
        unfold kernelOf at h
        split at h <;> (try cases h) <;> simp_all [owned]
      have := ((i.b.ow t' r).1 ho).2
      rw [hg] at this
      cases this
  have a1 : A (s.addPtr (.loc t r)) := i.a.add (h := .loc t r) hr (by have := i.a.pos h; exact this) (.inr hl)
  have hm : Holder.queue r ∈ (s.addPtr (.loc t r)).ptrs := List.mem_cons_of_mem _ h
  have hs : ∃ s1, (s.addPtr (.loc t r)).rmPtr (.queue r) = .ok s1 := by
    unfold St.rmPtr
    have := a1.two hm List.mem_cons_self (by simp) rfl
    rw [if_neg (by omega)]
    exact ⟨_, rfl⟩
  obtain ⟨s1, hs⟩ := hs
  obtain ⟨a, h1, h2, h3, h4, h5, h6, h7, h8, h9⟩ := a1.rm hm hs
  have hme : ∀ x, x ∈ s1.ptrs ↔ x ≠ .queue r ∧ (x = .loc t r ∨ x ∈ s.ptrs) := by
    intro x
    rw [h2, mem_erase_one a1 rfl]
    simp [St.addPtr, St.req]
  have hst : Still s s1 := fun y => by
    obtain ⟨e1, e2, e3⟩ := h9 y
    obtain ⟨e4, e5, e6⟩ := still_add (s := s) (h := .loc t r) y
    exact ⟨e1.trans e4, e2.trans e5, e3.trans e6⟩
  unfold take
  rw [hs]
  dsimp only
  refine ⟨setG g r (.own t), a.congr rfl rfl (fun _ => ⟨rfl, rfl, rfl⟩), ?_, i.c.still hst h1 h5 h6 h7 h8⟩
  have hq : owned (if (s.reqs r).aio = true then Pc.post r else .serve r) = some r := by split <;> rfl
  have hq2 : localOf (if (s.reqs r).aio = true then Pc.post r else .serve r) = some r := by split <;> rfl
  have hq3 : kernelOf (if (s.reqs r).aio = true then Pc.post r else .serve r) = none := by split <;> rfl
  have hq4 : cancelOf (if (s.reqs r).aio = true then Pc.post r else .serve r) = none := by split <;> rfl
  refine i.b.move (t := t) (r := r) (x := .own t) h1 (by show upd s1.thr t _ = _; rw [h3]; rfl) hr (fun r' _ => idle_free i hi r') ?_ ?_ ?_ ?_ ?_ ?_ ?_ ?_ ?_ ?_ ?_ ?_ ?_ ?_ ?_ ?_
  · intro r' hr'; rw [hq, hq2, hq3, hq4]; simp; omega
  · intro t' ht; rw [hg]; simp; omega
  · simp [St.pc, hme]
  · simp only [St.pc, h4, reduceCtorEq, iff_false]
    show r ∉ s.flying
    rw [i.b.fl r, hg]; simp
  · show s1.flying.Nodup
    rw [h4]; exact i.b.flnd
  · simp [hq]
  · simp [St.pc, hme, hq2]
  · simp [St.pc, hme, hq3, hk]
  · simp [hq4]
  · simp
  · simp
  · simp
  · show pcOk fo s1.reqs _
    split
    · rename_i ha
      exact ⟨by rw [(hst r).1]; exact hp, by rw [(hst r).2.1]; exact hf, by rw [(hst r).2.2]; exact ha⟩
    · exact ⟨by rw [(hst r).1]; exact hp, by rw [(hst r).2.1]; exact hf⟩
  · intro y y1 y2 y3; simp [St.pc, hme, y1, y2]
  · intro y hy; simp only [St.pc, h4]; exact Iff.rfl
  · intro y hy; exact hst y

/-- The last pointer of a thread that does not own its request. -/
theorem good_release (i : I fo s g) {t r : Nat} {w : Who} (hw : w ≠ .aio) (ht : s.thr t = .drop r w) :
    Good fo s (.work t) (match s.rmPtr (.loc t r) with | .ok s' => .ok (s'.pc t .idle) | x => x) := by
  have hlo : localOf (s.thr t) = some r := by rw [ht]; cases w <;> first | rfl | exact absurd rfl hw
  have how : owned (s.thr t) = none := by rw [ht]; cases w <;> first | rfl | exact absurd rfl hw
  have hke : kernelOf (s.thr t) = none := by rw [ht]; cases w <;> first | rfl | exact absurd rfl hw
  have h := (i.b.lc t r).2 hlo
  obtain ⟨s', hs⟩ := rm_ok i.a i.b h (by
    intro hp
    obtain ⟨h', g1, g2, g3⟩ := i.b.busy (i.a.known _ h) (by rw [hp]; simp)
    refine ⟨h', g1, ?_, g2⟩
    rcases g3 with rfl | rfl | ⟨t', rfl, ho⟩
    · simp
    · simp
    · intro e
      injection e with e
      subst e
      rw [how] at ho; cases ho)
  rw [hs]
  obtain ⟨a, h1, h2, h3, h4, h5, h6, h7, h8, h9⟩ := i.a.rm h hs
  have hme : ∀ x, x ∈ s'.ptrs ↔ x ≠ .loc t r ∧ x ∈ s.ptrs := by
    intro x
    rw [h2, mem_erase_one i.a rfl]
  refine ⟨g, a.congr rfl rfl (fun _ => ⟨rfl, rfl, rfl⟩), ?_, i.c.still h9 h1 h5 h6 h7 h8⟩
  refine i.b.side h1 (by show upd s'.thr t _ = _; rw [h3]) h4 how hke rfl rfl ?_ ?_ ?_ h9
  · intro y
    simp only [St.pc, hme, localOf, reduceCtorEq, iff_false]
    rintro ⟨e, hy⟩
    rw [i.b.lc t y, hlo] at hy
    injection hy with hy
    exact e (by rw [hy])
  · simp [cancelOf]
  · intro y hy; simp [St.pc, hme, hy r]

theorem good_cancel1 (i : I fo s g) {t r : Nat} (ht : s.thr t = .cancel1 r) :
    Good fo s (.work t) (s.use r (fun q => s.file q (fun _ => .ok ((s.addPtr (.loc t r)).pc t (.cancel2 r))))) := by
  have hc := i.b.cl t r (by rw [ht]; rfl)
  have hr : r ∈ s.ids := i.a.known _ hc
  have hl : Holder.loc t r ∉ s.ptrs := by rw [i.b.lc t r, ht]; simp [localOf]
  rw [show s.use r _ = _ from use_of i hc _, show (Holder.client t r).req = r from rfl, i.useFile hr]
  split
  · rename_i hp
    exact .inr ⟨t, r, rfl, ht, hp⟩
  · refine ⟨g, (i.a.add (h := .loc t r) hr (by have := i.a.pos hc; exact this) (.inr hl)).congr rfl rfl (fun _ => ⟨rfl, rfl, rfl⟩), ?_,
      i.c.still still_add rfl rfl rfl rfl rfl⟩
    refine i.b.side (t := t) (p := .cancel2 r) rfl rfl rfl (by rw [ht]; rfl) (by rw [ht]; rfl) rfl rfl ?_ ?_ ?_ still_add
    · intro y
      have := i.b.lc t y
      rw [ht] at this
      simp only [localOf, reduceCtorEq, iff_false] at this
      simp [St.pc, St.addPtr, St.req, localOf, this]
      exact eq_comm
    · intro y hy
      simp only [cancelOf, Option.some.injEq] at hy
      subst hy
      exact hc
    · intro y hy; simp [St.pc, St.addPtr, St.req, hy r]

theorem good_cancel2 (i : I fo s g) {t r : Nat} (ht : s.thr t = .cancel2 r) : Good fo s (.work t)
    (if .queue r ∈ s.ptrs then
      match s.rmPtr (.queue r) with
      | .ok s' => .ok (s'.pc t (.comp r .setDone .cancel))
      | x => x
    else .ok (s.pc t (.drop r .cancel))) := by
  have hc := i.b.cl t r (by rw [ht]; rfl)
  have hr : r ∈ s.ids := i.a.known _ hc
  have hl : Holder.loc t r ∈ s.ptrs := by rw [i.b.lc t r, ht]; simp [localOf]
  have hl' : ∀ y, Holder.loc t y ∈ s.ptrs ↔ y = r := by intro y; rw [i.b.lc t y, ht]; simp [localOf]; exact eq_comm
  split
  · rename_i h
    obtain ⟨_, hg⟩ := (i.b.q r).1 h
    obtain ⟨hp, hf⟩ := i.b.st1 r hr (.inl hg)
    have hk : Holder.kernel r ∉ s.ptrs := by
      rw [i.b.ker r, hg]
      rintro (⟨_, h⟩ | ⟨t', h⟩)
      · cases h
      · have ho : owned (s.thr t') = some r := by
          unfold kernelOf at h
          split at h <;> (try cases h) <;> simp_all [owned]
        have := ((i.b.ow t' r).1 ho).2
        rw [hg] at this
        cases this
    have hs : ∃ s1, s.rmPtr (.queue r) = .ok s1 := by
      unfold St.rmPtr
      have := i.a.two h hl (by simp) rfl
      rw [if_neg (by omega)]
      exact ⟨_, rfl⟩
    obtain ⟨s1, hs⟩ := hs
    obtain ⟨a, h1, h2, h3, h4, h5, h6, h7, h8, h9⟩ := i.a.rm h hs
    have hme : ∀ x, x ∈ s1.ptrs ↔ x ≠ .queue r ∧ x ∈ s.ptrs := by
      intro x
      rw [h2, mem_erase_one i.a rfl]
    rw [hs]
    refine ⟨setG g r (.own t), a.congr rfl rfl (fun _ => ⟨rfl, rfl, rfl⟩), ?_, i.c.still h9 h1 h5 h6 h7 h8⟩
    refine i.b.move (t := t) (r := r) (p := .comp r .setDone .cancel) (x := .own t) h1 (by show upd s1.thr t _ = _; rw [h3]) hr ?_ ?_ ?_ ?_ ?_ ?_ ?_ ?_ ?_ ?_ ?_ ?_ ?_ ?_ ?_ ?_ ?_
    · intro r' hr'; rw [ht]; simp [owned, localOf, kernelOf]; omega
    · intro r' hr'; simp [owned, localOf, kernelOf, cancelOf]; omega
    · intro t' ht; rw [hg]; simp; omega
    · simp [St.pc, hme]
    · simp only [St.pc, h4, reduceCtorEq, iff_false]
      rw [i.b.fl r, hg]; simp
    · show s1.flying.Nodup
      rw [h4]; exact i.b.flnd
    · simp [owned]
    · simp [St.pc, hme, localOf, hl]
    · simp [St.pc, hme, kernelOf, hk]
    · simp [cancelOf]
    · simp
    · simp
    · simp
    · exact ⟨⟨by rw [← (h9 r).1] at hp; exact hp, by rw [← (h9 r).2.1] at hf; exact hf⟩, fun h => by cases h⟩
    · intro y y1 y2 y3; simp [St.pc, hme, y1]
    · intro y hy; simp only [St.pc, h4]
    · intro y hy; exact h9 y
  · rename_i h
    refine ⟨g, i.a.congr rfl rfl (fun _ => ⟨rfl, rfl, rfl⟩), ?_, i.c.still (still_of fun _ => rfl) rfl rfl rfl rfl rfl⟩
    refine i.b.side (t := t) (p := .drop r .cancel) rfl rfl rfl (by rw [ht]; rfl) (by rw [ht]; rfl) rfl rfl ?_ ?_ (fun _ _ => Iff.rfl) (still_of fun _ => rfl)
    · intro y
      simp only [St.pc, hl', localOf, Option.some.injEq]
      exact eq_comm
    · simp [cancelOf]

/-! ### The steps of the thread that owns a request -/

/-- The owner stays owner: neither pointers nor the kernel are concerned. -/
theorem B.keep (b : B fo s g) {t r : Nat} {p : Pc} (h1 : s'.ids = s.ids) (h2 : s'.ptrs = s.ptrs) (h3 : s'.thr = upd s.thr t p) (h4 : s'.flying = s.flying)
    (ho : owned (s.thr t) = some r) (ho' : owned p = some r) (hl : localOf p = localOf (s.thr t)) (hk : kernelOf p = kernelOf (s.thr t)) (hc : cancelOf p = none)
    (hpc : pcOk fo s'.reqs p)
    (hreq : ∀ y, y ≠ r → (s'.reqs y).phase = (s.reqs y).phase ∧ (s'.reqs y).file = (s.reqs y).file ∧ (s'.reqs y).aio = (s.reqs y).aio) : B fo s' (setG g r (.own t)) := by
  obtain ⟨hr, hg⟩ := (b.ow t r).1 ho
  have hn : ∀ q : Pc, ∀ r', owned q = some r → r' ≠ r → owned q ≠ some r' ∧ localOf q ≠ some r' ∧ kernelOf q ≠ some r' := by
    intro q r' h hne
    cases q with
    | comp y k w => simp only [owned, Option.some.injEq] at h; subst h; cases w <;> simp [owned, localOf, kernelOf] <;> omega
    | drop y w => cases w <;> simp only [owned, Option.some.injEq, reduceCtorEq] at h; subst h; simp [owned, localOf, kernelOf]; omega
    | _ => simp only [owned, Option.some.injEq, reduceCtorEq] at h <;> subst h <;> simp [owned, localOf, kernelOf] <;> omega
  refine b.move (t := t) (r := r) (p := p) (x := .own t) h1 h3 hr (fun r' hr' => hn _ r' ho hr') ?_ ?_ ?_ ?_ ?_ ?_ ?_ ?_ ?_ ?_ ?_ ?_ hpc ?_ ?_ hreq
  · intro r' hr'
    obtain ⟨e1, e2, e3⟩ := hn p r' ho' hr'
    exact ⟨e1, e2, e3, by rw [hc]; simp⟩
  · intro t' ht; rw [hg]; simp; omega
  · rw [h2, b.q r, hg]; simp
  · rw [h4, b.fl r, hg]; simp
  · rw [h4]; exact b.flnd
  · simp [ho']
  · rw [h2, b.lc t r, hl]
  · rw [h2, b.ker r, hg, hk]
    simp only [reduceCtorEq, and_false, false_or]
    constructor
    · rintro ⟨t', h⟩
      have ho2 : owned (s.thr t') = some r := by
        unfold kernelOf at h
        split at h <;> (try cases h) <;> simp_all [owned]
      have := ((b.ow t' r).1 ho2).2
      rw [hg] at this
      injection this with this
      rw [this]; exact h
    · intro h; exact ⟨t, h⟩
  · rw [hc]; simp
  · simp
  · simp
  · simp
  · intro y _ _ _; rw [h2]
  · intro y _; rw [h4]

theorem owned_alive (i : I fo s g) {t r : Nat} (ho : owned (s.thr t) = some r) (k : Req → Res St) : r ∈ s.ids ∧ s.use r k = k (s.reqs r) := by
  refine ⟨((i.b.ow t r).1 ho).1, ?_⟩
  rcases owned_ptr ho with h | h
  · exact use_of i ((i.b.lc t r).2 h) k
  · exact use_of i ((i.b.ker r).2 (.inr ⟨t, h⟩)) k

theorem good_serve (i : I fo s g) {t r : Nat} (ht : s.thr t = .serve r) :
    Good fo s (.work t) (s.use r (fun q => s.file q (fun _ => .ok (s.pc t (.comp r .setDone .worker))))) := by
  have ho : owned (s.thr t) = some r := by rw [ht]; rfl
  obtain ⟨hr, hu⟩ := owned_alive i ho (fun q => s.file q (fun _ => .ok (s.pc t (.comp r .setDone .worker))))
  have hp := i.b.pc t
  rw [ht] at hp
  rw [hu, i.useFile hr, if_neg (by rw [hp.2]; simp)]
  refine ⟨setG g r (.own t), i.a.congr rfl rfl (fun _ => ⟨rfl, rfl, rfl⟩), ?_, i.c.still (still_of fun _ => rfl) rfl rfl rfl rfl rfl⟩
  exact i.b.keep (p := .comp r .setDone .worker) rfl rfl rfl rfl ho rfl (by rw [ht]; rfl) (by rw [ht]; rfl) rfl ⟨⟨hp.1, hp.2⟩, fun h => by cases h⟩ (fun _ _ => ⟨rfl, rfl, rfl⟩)

theorem good_post (i : I fo s g) {t r : Nat} (ht : s.thr t = .post r) :
    Good fo s (.work t) (s.use r (fun _ => .ok { (s.addPtr (.kernel r)).pc t (.drop r .worker) with flying := r :: s.flying })) := by
  have ho : owned (s.thr t) = some r := by rw [ht]; rfl
  obtain ⟨hr, hu⟩ := owned_alive i ho (fun _ => .ok { (s.addPtr (.kernel r)).pc t (.drop r .worker) with flying := r :: s.flying })
  obtain ⟨_, hg⟩ := (i.b.ow t r).1 ho
  have hp := i.b.pc t
  rw [ht] at hp
  have hl : Holder.loc t r ∈ s.ptrs := by rw [i.b.lc t r, ht]; simp [localOf]
  have hk : Holder.kernel r ∉ s.ptrs := by
    rw [i.b.ker r, hg]
    rintro (⟨_, h⟩ | ⟨t', h⟩)
    · cases h
    · have ho2 : owned (s.thr t') = some r := by
        unfold kernelOf at h
        split at h <;> (try cases h) <;> simp_all [owned]
      have := ((i.b.ow t' r).1 ho2).2
      rw [hg] at this
      injection this with this
      rw [← this, ht] at h
      cases h
  have hfl : r ∉ s.flying := by rw [i.b.fl r, hg]; simp
  rw [hu]
  refine ⟨setG g r .fly, (i.a.add (h := .kernel r) hr (by have := i.a.pos hl; exact this) (.inr hk)).congr rfl rfl (fun _ => ⟨rfl, rfl, rfl⟩), ?_,
    i.c.still still_add rfl rfl rfl rfl rfl⟩
  have hst := still_add (s := s) (h := .kernel r)
  refine i.b.move (t := t) (r := r) (p := .drop r .worker) (x := .fly) rfl rfl hr ?_ ?_ ?_ ?_ ?_ ?_ ?_ ?_ ?_ ?_ ?_ ?_ ?_ ?_ ?_ ?_ ?_
  · intro r' hr'; rw [ht]; simp [owned, localOf, kernelOf]; omega
  · intro r' hr'; simp [owned, localOf, kernelOf, cancelOf]; omega
  · intro t' ht; rw [hg]; simp; omega
  · simp only [St.pc, St.addPtr, St.req, List.mem_cons, reduceCtorEq, false_or, iff_false]
    rw [i.b.q r, hg]; simp
  · simp
  · exact List.nodup_cons.2 ⟨hfl, i.b.flnd⟩
  · simp [owned]
  · simp [St.pc, St.addPtr, St.req, localOf, hl]
  · simp [St.pc, St.addPtr, St.req]
  · simp [cancelOf]
  · intro _; exact ⟨(hst r).1.trans hp.1, (hst r).2.1.trans hp.2.1⟩
  · simp
  · intro _; exact (hst r).2.2.trans hp.2.2
  · trivial
  · intro y y1 y2 y3; simp [St.pc, St.addPtr, St.req, y3]
  · intro y hy; simp [hy]
  · intro y _; exact hst y

theorem good_event_end (i : I fo s g) {t r : Nat} (ht : s.thr t = .drop r .aio) :
    Good fo s (.work t) (s.use r (fun _ => .ok ((s.dec (.kernel r)).pc t .idle))) := by
  have ho : owned (s.thr t) = some r := by rw [ht]; rfl
  obtain ⟨hr, hu⟩ := owned_alive i ho (fun _ => .ok ((s.dec (.kernel r)).pc t .idle))
  obtain ⟨_, hg⟩ := (i.b.ow t r).1 ho
  have hp := i.b.pc t
  rw [ht] at hp
  have hk : Holder.kernel r ∈ s.ptrs := (i.b.ker r).2 (.inr ⟨t, by rw [ht]; rfl⟩)
  have hme : ∀ x, x ∈ (s.dec (.kernel r)).ptrs ↔ x ≠ .kernel r ∧ x ∈ s.ptrs := fun x => mem_erase_one i.a rfl
  have hst := still_dec (s := s) (h := .kernel r)
  rw [hu]
  refine ⟨setG g r .fin, (i.a.dec hk (.inr hp.2.2)).congr rfl rfl (fun _ => ⟨rfl, rfl, rfl⟩), ?_, i.c.still still_dec rfl rfl rfl rfl rfl⟩
  refine i.b.move (t := t) (r := r) (p := .idle) (x := .fin) rfl rfl hr ?_ ?_ ?_ ?_ ?_ ?_ ?_ ?_ ?_ ?_ ?_ ?_ ?_ ?_ ?_ ?_ ?_
  · intro r' hr'; rw [ht]; simp [owned, localOf, kernelOf]; omega
  · intro r' hr'; simp [owned, localOf, kernelOf, cancelOf]
  · intro t' ht; rw [hg]; simp; omega
  · simp only [St.pc, hme, ne_eq, reduceCtorEq, not_false_eq_true, true_and, iff_false]
    rw [i.b.q r, hg]; simp
  · simp only [St.pc, St.dec, St.req, reduceCtorEq, iff_false]
    rw [i.b.fl r, hg]; simp
  · exact i.b.flnd
  · simp [owned]
  · simp only [St.pc, hme, ne_eq, reduceCtorEq, not_false_eq_true, true_and, localOf, iff_false]
    rw [i.b.lc t r, ht]; simp [localOf]
  · simp [St.pc, hme, kernelOf]
  · simp [cancelOf]
  · simp
  · intro _; exact ⟨(hst r).1.trans hp.1, (hst r).2.1.trans hp.2.1⟩
  · simp
  · trivial
  · intro y y1 y2 y3; simp [St.pc, hme, y3]
  · intro y hy; exact Iff.rfl
  · intro y _; exact hst y

/-- Changing state or file of the owned request. -/
theorem good_comp (i : I fo s g) {t r : Nat} {k : CStep} {w : Who} (ht : s.thr t = .comp r k w) :
    Good fo s (.work t) (s.use r (fun q => compStep s t r w q k)) := by
  have ho : owned (s.thr t) = some r := by rw [ht]; rfl
  obtain ⟨hr, hu⟩ := owned_alive i ho (fun q => compStep s t r w q k)
  obtain ⟨_, hg⟩ := (i.b.ow t r).1 ho
  have hp := i.b.pc t
  rw [ht] at hp
  obtain ⟨hp, hw⟩ := hp
  rw [hu]
  have hkeep : ∀ (k' : CStep) (q : Req), q.refs = (s.reqs r).refs → q.alive = (s.reqs r).alive → q.aio = (s.reqs r).aio → stepOk (fo r) q k' →
      A ((s.req r q).pc t (.comp r k' w)) ∧ B fo ((s.req r q).pc t (.comp r k' w)) (setG g r (.own t)) := by
    intro k' q e1 e2 e3 hq
    refine ⟨i.a.congr rfl rfl ?_, ?_⟩
    · intro y
      simp only [St.pc, St.req, upd]
      split
      · rename_i e; subst e; exact ⟨e1, e2, e3⟩
      · exact ⟨rfl, rfl, rfl⟩
    · refine i.b.keep (p := .comp r k' w) rfl rfl rfl rfl ho rfl (by rw [ht]; cases w <;> rfl) (by rw [ht]; cases w <;> rfl) rfl ?_ ?_
      · simp only [pcOk, St.pc, St.req, upd, if_true]
        exact ⟨hq, fun h => e3.trans (hw h)⟩
      · intro y hy
        simp [St.pc, St.req, upd, hy]
  have hself : s.req r (s.reqs r) = s := by
    unfold St.req
    have : upd s.reqs r (s.reqs r) = s.reqs := by funext y; simp only [upd]; split <;> simp_all
    rw [this]
  have hnr : (s.reqs r).phase ≠ .ready := by cases k <;> simp [stepOk] at hp <;> simp [hp]
  cases k with
  | setDone =>
    have hres : compStep s t r w (s.reqs r) .setDone = .ok ((s.req r { s.reqs r with phase := .done }).pc t (.comp r .handler w)) := by
      simp only [compStep]
      split
      · rw [i.useFile hr, if_neg (by rw [hp.2]; simp)]
      · rfl
    rw [hres]
    obtain ⟨a, b⟩ := hkeep .handler { s.reqs r with phase := .done } rfl rfl rfl ⟨rfl, hp.2⟩
    refine ⟨_, a, b, i.c.set hnr rfl rfl rfl rfl ?_ ?_⟩
    · intro y hy; simp [St.pc, St.req, upd, hy]
    · intro f
      show s.nref f = _
      rw [i.c.nref f]
      congr 1
      funext y
      simp only [St.pc, St.req, upd]
      split <;> simp_all
  | handler =>
    obtain ⟨a, b⟩ := hkeep .notify (s.reqs r) rfl rfl rfl hp
    rw [hself] at a b
    exact ⟨_, a, b, i.c.still (still_of fun _ => rfl) rfl rfl rfl rfl rfl⟩
  | notify =>
    obtain ⟨a, b⟩ := hkeep .release (s.reqs r) rfl rfl rfl hp
    rw [hself] at a b
    exact ⟨_, a, b, i.c.still (still_of fun _ => rfl) rfl rfl rfl rfl rfl⟩
  | release =>
    simp only [compStep]
    rw [hp.2]
    simp only [i.falive hr hnr, if_true]
    obtain ⟨a, b⟩ := hkeep .setReady { s.reqs r with file := none } rfl rfl rfl ⟨hp.1, rfl⟩
    refine ⟨setG g r (.own t), a.congr rfl rfl (fun _ => ⟨rfl, rfl, rfl⟩), ⟨b.q, b.fl, b.flnd, b.ow, b.lc, b.ker, b.cl, b.st1, b.st2, b.fa, b.pc⟩, i.c.set hnr rfl rfl rfl rfl ?_ ?_⟩
    · intro y hy; simp [St.pc, St.req, upd, hy]
    · intro f
      show upd s.nref (fo r) (s.nref (fo r) - 1) f = _
      simp only [upd]
      split
      · rename_i e
        subst e
        rw [i.c.nref]
        symm
        apply countP_one i.a.nd hr
        · intro y hy; simp [St.pc, St.req, upd, hy]
        · simp [hp.2]
        · simp [St.pc, St.req, upd]
      · rename_i e
        rw [i.c.nref f]
        apply List.countP_congr
        intro y _
        simp only [St.pc, St.req, upd]
        by_cases ey : y = r
        · subst ey
          rw [hp.2]
          simp
          exact fun h => e h.symm
        · simp [ey]
  | setReady =>
    simp only [compStep]
    have a : A ((s.req r { s.reqs r with phase := .ready }).pc t (.drop r w)) := by
      refine i.a.congr rfl rfl ?_
      intro y
      simp only [St.pc, St.req, upd]
      split
      · rename_i e; subst e; exact ⟨rfl, rfl, rfl⟩
      · exact ⟨rfl, rfl, rfl⟩
    have c : C fo ((s.req r { s.reqs r with phase := .ready }).pc t (.drop r w)) := by
      refine i.c.set hnr rfl rfl rfl rfl ?_ ?_
      · intro y hy; simp [St.pc, St.req, upd, hy]
      · intro f
        show s.nref f = _
        rw [i.c.nref f]
        congr 1
        funext y
        simp only [St.pc, St.req, upd]
        split <;> simp_all
    by_cases ew : w = .aio
    · subst ew
      refine ⟨setG g r (.own t), a, ?_, c⟩
      refine i.b.keep (p := .drop r .aio) rfl rfl rfl rfl ho rfl (by rw [ht]; rfl) (by rw [ht]; rfl) rfl ?_ ?_
      · simp only [pcOk, St.pc, St.req, upd, if_true]
        exact ⟨trivial, hp.2, hw rfl⟩
      · intro y hy
        simp [St.pc, St.req, upd, hy]
    · refine ⟨setG g r .fin, a, ?_, c⟩
      have hlo : localOf (s.thr t) = some r := by rw [ht]; cases w <;> first | rfl | exact absurd rfl ew
      have hke : ∀ y, kernelOf (s.thr t) ≠ some y := by rw [ht]; cases w <;> first | (simp [kernelOf]; done) | exact absurd rfl ew
      have ho2 : owned (.drop r w) = none := by cases w <;> first | rfl | exact absurd rfl ew
      have hl2 : localOf (.drop r w) = some r := by cases w <;> first | rfl | exact absurd rfl ew
      have hk2 : kernelOf (.drop r w) = none := by cases w <;> first | rfl | exact absurd rfl ew
      refine i.b.move (t := t) (r := r) (p := .drop r w) (x := .fin) rfl rfl hr ?_ ?_ ?_ ?_ ?_ ?_ ?_ ?_ ?_ ?_ ?_ ?_ ?_ ?_ ?_ ?_ ?_
      · intro r' hr'; rw [hlo, ho]; refine ⟨?_, ?_, hke r'⟩ <;> simp <;> omega
      · intro r' hr'; rw [ho2, hl2, hk2]; simp [cancelOf]; omega
      · intro t' ht; rw [hg]; simp; omega
      · simp only [St.pc, St.req, reduceCtorEq, iff_false]
        rw [i.b.q r, hg]; simp
      · simp only [St.pc, St.req, reduceCtorEq, iff_false]
        rw [i.b.fl r, hg]; simp
      · exact i.b.flnd
      · simp [ho2]
      · simp only [St.pc, St.req]
        rw [i.b.lc t r, hlo, hl2]
      · simp only [St.pc, St.req, reduceCtorEq, false_or, hk2, iff_false]
        rw [i.b.ker r, hg]
        rintro (⟨_, h⟩ | ⟨t', h⟩)
        · cases h
        · have ho2 : owned (s.thr t') = some r := by
            unfold kernelOf at h
            split at h <;> (try cases h) <;> simp_all [owned]
          have := ((i.b.ow t' r).1 ho2).2
          rw [hg] at this
          injection this with this
          rw [← this] at h
          exact hke _ h
      · simp [cancelOf]
      · simp
      · intro _; simp [St.pc, St.req, upd, hp.2]
      · simp
      · exact pcOk_none ho2
      · intro y _ _ _; exact Iff.rfl
      · intro y _; exact Iff.rfl
      · intro y hy; simp [St.pc, St.req, upd, hy]

/-! ### All steps -/

theorem good_step (i : I fo s g) {op : Op} (hl : Legal fo s op) : Good fo s op (step s op) := by
  cases op with
  | submit t r f aio refused =>
    obtain ⟨rfl, h2, h3⟩ := hl
    simp only [step]
    split
    · rename_i h; exact good_submit i h2 h3 h.2
    · trivial
  | copy t t' r =>
    simp only [step]
    split
    · rename_i h; exact good_copy i h.2
    · trivial
  | drop t r =>
    simp only [step]
    split
    · rename_i h; exact good_drop i h.1 h.2
    · trivial
  | wait t r =>
    simp only [step]
    split
    · rename_i h; exact good_wait i h.2
    · trivial
  | poll t r b =>
    simp only [step]
    split
    · rename_i h; exact good_poll i h.2
    · trivial
  | ioType t r =>
    simp only [step]
    split
    · rename_i h; exact good_ioType i h.2
    · trivial
  | cancel t r =>
    simp only [step]
    split
    · rename_i h; exact good_cancel i h.1 h.2
    · trivial
  | take t r =>
    simp only [step]
    split
    · rename_i h; exact good_take i h.1 h.2
    · trivial
  | event t r =>
    simp only [step]
    split
    · rename_i h; exact good_event i h.1 h.2
    · trivial
  | work t =>
    show Good fo s (.work t) (work s t)
    unfold work
    split
    · trivial
    · rename_i r ht; exact good_serve i ht
    · rename_i r ht; exact good_post i ht
    · rename_i r k w ht; exact good_comp i ht
    · rename_i r ht; exact good_event_end i ht
    · rename_i r w hw ht; exact good_release i hw ht
    · rename_i r ht; exact good_cancel1 i ht
    · rename_i r ht; exact good_cancel2 i ht
  | delFile f =>
    simp only [step]
    split
    · have hw : ∀ r, r ∈ s.ids → fo r = f → (s.reqs r).phase = .ready := fun r hr e => (i.c.wt r (hl r hr e)).2
      have hn : s.nref f = 0 := by
        rw [i.c.nref f]
        apply List.countP_eq_zero.2
        intro r hr
        obtain ⟨h1, h2⟩ := i.b.file hr
        by_cases e : fo r = f
        · rw [h1 (hw r hr e)]; simp
        · rcases h2 with h2 | h2 <;> rw [h2] <;> simp [e]
      refine ⟨g, i.a.congr rfl rfl (fun _ => ⟨rfl, rfl, rfl⟩), ⟨i.b.q, i.b.fl, i.b.flnd, i.b.ow, i.b.lc, i.b.ker, i.b.cl, i.b.st1, i.b.st2, i.b.fa, i.b.pc⟩,
        ⟨i.c.nref, i.c.wt, ?_, ?_⟩⟩
      · intro f' hf' r hr e
        simp only [upd] at hf'
        split at hf'
        · rename_i ef; exact hw r hr (e.trans ef)
        · exact i.c.del f' hf' r hr e
      · simp [hn, i.c.warn]
    · trivial

theorem init_inv (fo : Nat → Nat) : I fo init (fun _ => .fin) where
  a := by constructor <;> simp [init]
  b := by constructor <;> simp [init, owned, localOf, kernelOf, cancelOf, pcOk]
  c := by constructor <;> simp [init]

theorem reach_inv (h : Reach fo s) : ∃ g, I fo s g := by
  induction h with
  | start => exact ⟨_, init_inv fo⟩
  | next op _ hl hs ih =>
    obtain ⟨g, i⟩ := ih
    have := good_step i hl
    rw [hs] at this
    exact this

end Foxxll.Life
