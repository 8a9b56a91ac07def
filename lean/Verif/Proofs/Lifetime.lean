import Verif.Spec.Lifetime
/-
Invariants for property C116.
-/
set_option linter.unusedSimpArgs false
set_option linter.unusedVariables false

namespace Foxxll.Life

def Holder.isClient : Holder → Bool
  | .client _ _ => true
  | _ => false

/-! ### Counting -/

/-- The counters are right, references that are not clients' exist once, and objects exist while there are references. -/
structure A (s : St) : Prop where
  nd : s.ids.Nodup
  known : ∀ h ∈ s.ptrs, h.req ∈ s.ids
  cnt : ∀ r, r ∈ s.ids → (s.reqs r).refs = s.ptrs.countP (fun h => h.req == r)
  one : ∀ h, h.isClient = false → s.ptrs.count h ≤ 1
  al : ∀ r, r ∈ s.ids → (s.reqs r).refs ≠ 0 → (s.reqs r).alive = true
  al2 : ∀ r, r ∈ s.ids → (s.reqs r).aio = false → (s.reqs r).alive = true → (s.reqs r).refs ≠ 0

theorem A.pos {s : St} (a : A s) {h : Holder} (hh : h ∈ s.ptrs) : (s.reqs h.req).refs ≠ 0 := by
  rw [a.cnt _ (a.known h hh)]
  have : 0 < s.ptrs.countP (fun x => x.req == h.req) := List.countP_pos_iff.2 ⟨h, hh, by simp⟩
  omega

theorem A.alive {s : St} (a : A s) {h : Holder} (hh : h ∈ s.ptrs) : (s.reqs h.req).alive = true := a.al _ (a.known h hh) (a.pos hh)

theorem countP_two {α : Type} {p : α → Bool} {l : List α} [DecidableEq α] {a b : α} (ha : a ∈ l) (hb : b ∈ l) (hab : a ≠ b) (pa : p a = true) (pb : p b = true) :
    2 ≤ l.countP p := by
  induction l with
  | nil => cases ha
  | cons x l ih =>
    rw [List.countP_cons]
    rcases List.mem_cons.1 ha with rfl | ha'
    · rcases List.mem_cons.1 hb with rfl | hb'
      · exact absurd rfl hab
      · have : 0 < l.countP p := List.countP_pos_iff.2 ⟨b, hb', pb⟩
        rw [if_pos pa]; omega
    · rcases List.mem_cons.1 hb with rfl | hb'
      · have : 0 < l.countP p := List.countP_pos_iff.2 ⟨a, ha', pa⟩
        rw [if_pos pb]; omega
      · have := ih ha' hb'
        omega

theorem countP_erase' {α : Type} [DecidableEq α] {p : α → Bool} {l : List α} {a : α} (ha : a ∈ l) : l.countP p = (l.erase a).countP p + if p a then 1 else 0 := by
  have h := (List.perm_cons_erase ha).countP_eq p
  rw [h, List.countP_cons]

theorem A.two {s : St} (a : A s) {h h' : Holder} (hh : h ∈ s.ptrs) (hh' : h' ∈ s.ptrs) (hne : h ≠ h') (hr : h.req = h'.req) : 2 ≤ (s.reqs h.req).refs := by
  rw [a.cnt _ (a.known h hh)]
  exact countP_two hh hh' hne (by simp) (by simp [hr])

/-- Same counters, pointers and objects. -/
theorem A.congr {s s' : St} (a : A s) (h1 : s'.ids = s.ids) (h2 : s'.ptrs = s.ptrs)
    (h3 : ∀ r, (s'.reqs r).refs = (s.reqs r).refs ∧ (s'.reqs r).alive = (s.reqs r).alive ∧ (s'.reqs r).aio = (s.reqs r).aio) : A s' where
  nd := by rw [h1]; exact a.nd
  known := by rw [h1, h2]; exact a.known
  cnt := by intro r hr; rw [h1] at hr; rw [(h3 r).1, h2]; exact a.cnt r hr
  one := by rw [h2]; exact a.one
  al := by intro r hr; rw [h1] at hr; rw [(h3 r).1, (h3 r).2.1]; exact a.al r hr
  al2 := by intro r hr; rw [h1] at hr; rw [(h3 r).1, (h3 r).2.1, (h3 r).2.2]; exact a.al2 r hr

theorem A.add {s : St} (a : A s) {h : Holder} (hr : h.req ∈ s.ids) (hp : (s.reqs h.req).refs ≠ 0) (hn : h.isClient = true ∨ h ∉ s.ptrs) : A (s.addPtr h) where
  nd := a.nd
  known := by
    intro x hx
    rcases List.mem_cons.1 hx with rfl | hx
    · exact hr
    · exact a.known x hx
  cnt := by
    intro r hr'
    have hc := a.cnt r hr'
    simp only [St.addPtr, St.req, upd, List.countP_cons]
    by_cases e : r = h.req
    · subst e; simp [hc]
    · have : (h.req == r) = false := by simpa using fun x => e x.symm
      simp [e, this, hc]
  one := by
    intro x hx
    have := a.one x hx
    simp only [St.addPtr, List.count_cons]
    split
    · rename_i e
      have e : h = x := by simpa using e
      subst e
      rcases hn with hn | hn
      · rw [hn] at hx; cases hx
      · rw [List.count_eq_zero_of_not_mem hn]; omega
    · omega
  al := by
    intro r hr' hne
    simp only [St.addPtr, St.req, upd] at hne ⊢
    by_cases e : r = h.req
    · subst e; simp only [if_true]; exact a.al _ hr hp
    · simp only [if_neg e] at hne ⊢; exact a.al r hr' hne
  al2 := by
    intro r hr' ha hl
    simp only [St.addPtr, St.req, upd] at ha hl ⊢
    by_cases e : r = h.req
    · subst e; simp
    · simp only [if_neg e] at ha hl ⊢; exact a.al2 r hr' ha hl

theorem A.dec {s : St} (a : A s) {h : Holder} (hh : h ∈ s.ptrs) (h2 : (s.reqs h.req).refs ≠ 1 ∨ (s.reqs h.req).aio = true) : A (s.dec h) where
  nd := a.nd
  known := fun x hx => a.known x (List.mem_of_mem_erase hx)
  cnt := by
    intro r hr'
    have hc := a.cnt r hr'
    have he := countP_erase' (p := fun x => x.req == r) hh
    simp only [St.dec, St.req, upd]
    by_cases e : r = h.req
    · subst e; simp only [beq_self_eq_true, if_true] at he ⊢; omega
    · have : (h.req == r) = false := by simpa using fun x => e x.symm
      simp only [e, this, if_false, Bool.false_eq_true] at he ⊢; omega
  one := by
    intro x hx
    refine Nat.le_trans ?_ (a.one x hx)
    exact List.Sublist.count_le x (List.erase_sublist)
  al := by
    intro r hr' hne
    simp only [St.dec, St.req, upd] at hne ⊢
    by_cases e : r = h.req
    · subst e; simp only [if_true] at hne ⊢; exact a.alive hh
    · simp only [if_neg e] at hne ⊢; exact a.al r hr' hne
  al2 := by
    intro r hr' ha hl
    simp only [St.dec, St.req, upd] at ha hl ⊢
    by_cases e : r = h.req
    · subst e
      simp only [if_true] at ha hl ⊢
      have := a.pos hh
      rcases h2 with h2 | h2
      · omega
      · rw [h2] at ha; cases ha
    · simp only [if_neg e] at ha hl ⊢; exact a.al2 r hr' ha hl

/-- What the destructor of a pointer leaves. -/
theorem A.rm {s s' : St} (a : A s) {h : Holder} (hh : h ∈ s.ptrs) (hs : s.rmPtr h = .ok s') :
    A s' ∧ s'.ids = s.ids ∧ s'.ptrs = s.ptrs.erase h ∧ s'.thr = s.thr ∧ s'.flying = s.flying ∧ s'.nref = s.nref ∧ s'.falive = s.falive ∧
      s'.waited = s.waited ∧ s'.warned = s.warned ∧ ∀ r, (s'.reqs r).phase = (s.reqs r).phase ∧ (s'.reqs r).file = (s.reqs r).file ∧ (s'.reqs r).aio = (s.reqs r).aio := by
  unfold St.rmPtr at hs
  split at hs
  · rename_i h1
    split at hs
    · cases hs
    · rename_i h2
      injection hs with hs
      subst hs
      refine ⟨?_, rfl, rfl, rfl, rfl, rfl, rfl, rfl, rfl, ?_⟩
      · constructor
        · exact a.nd
        · exact fun x hx => a.known x (List.mem_of_mem_erase hx)
        · intro r hr'
          have hc := a.cnt r hr'
          have he := countP_erase' (p := fun x => x.req == r) hh
          simp only [St.dec, St.req, upd]
          by_cases e : r = h.req
          · subst e; simp only [beq_self_eq_true, if_true] at he ⊢; omega
          · have : (h.req == r) = false := by simpa using fun x => e x.symm
            simp only [e, this, if_false, Bool.false_eq_true] at he ⊢; omega
        · intro x hx
          exact Nat.le_trans (List.Sublist.count_le x (List.erase_sublist)) (a.one x hx)
        · intro r hr' hne
          simp only [St.dec, St.req, upd] at hne ⊢
          by_cases e : r = h.req
          · subst e; simp at hne
          · simp only [if_neg e] at hne ⊢; exact a.al r hr' hne
        · intro r hr' ha hl
          simp only [St.dec, St.req, upd] at ha hl ⊢
          by_cases e : r = h.req
          · subst e; simp at hl
          · simp only [if_neg e] at ha hl ⊢; exact a.al2 r hr' ha hl
      · intro r
        simp only [St.dec, St.req, upd]
        by_cases e : r = h.req
        · subst e; simp
        · simp [e]
  · rename_i h1
    injection hs with hs
    subst hs
    refine ⟨a.dec hh (.inl h1), rfl, rfl, rfl, rfl, rfl, rfl, rfl, rfl, ?_⟩
    intro r
    simp only [St.dec, St.req, upd]
    by_cases e : r = h.req
    · subst e; simp
    · simp [e]

theorem mem_erase_one {s : St} (a : A s) {h x : Holder} (hc : h.isClient = false) : x ∈ s.ptrs.erase h ↔ x ≠ h ∧ x ∈ s.ptrs := by
  by_cases e : x = h
  · subst e
    simp only [ne_eq, not_true_eq_false, false_and, iff_false]
    intro hm
    have h1 := a.one x hc
    have h2 : 0 < (s.ptrs.erase x).count x := List.count_pos_iff.2 hm
    rw [List.count_erase_self] at h2
    omega
  · rw [List.mem_erase_of_ne e]; simp [e]

/-! ### Stages -/

/-- Where a request is: in a queue, with a thread that serves, posts or completes it, in the kernel, finished. -/
inductive Stg
  | queued | own (t : Nat) | fly | fin
deriving DecidableEq

/-- The request that a thread has to complete. -/
def owned : Pc → Option Nat
  | .serve r => some r
  | .post r => some r
  | .comp r _ _ => some r
  | .drop r .aio => some r
  | _ => none

/-- The request that a local pointer of the thread refers to. -/
def localOf : Pc → Option Nat
  | .serve r => some r
  | .post r => some r
  | .comp r _ .worker => some r
  | .comp r _ .cancel => some r
  | .drop r .worker => some r
  | .drop r .cancel => some r
  | .cancel2 r => some r
  | _ => none

/-- The request whose kernel reference the thread is about to release. -/
def kernelOf : Pc → Option Nat
  | .comp r _ .aio => some r
  | .drop r .aio => some r
  | _ => none

/-- The request whose `cancel` the thread is executing. -/
def cancelOf : Pc → Option Nat
  | .cancel1 r => some r
  | .cancel2 r => some r
  | _ => none

/-- State and file of a request at the next step of its completion. -/
def stepOk (f : Nat) (q : Req) : CStep → Prop
  | .setDone => q.phase = .op ∧ q.file = some f
  | .handler => q.phase = .done ∧ q.file = some f
  | .notify => q.phase = .done ∧ q.file = some f
  | .release => q.phase = .done ∧ q.file = some f
  | .setReady => q.phase = .done ∧ q.file = none

def pcOk (fo : Nat → Nat) (reqs : Nat → Req) : Pc → Prop
  | .serve r => (reqs r).phase = .op ∧ (reqs r).file = some (fo r)
  | .post r => (reqs r).phase = .op ∧ (reqs r).file = some (fo r) ∧ (reqs r).aio = true
  | .comp r k w => stepOk (fo r) (reqs r) k ∧ (w = .aio → (reqs r).aio = true)
  | .drop r .aio => (reqs r).phase = .ready ∧ (reqs r).file = none ∧ (reqs r).aio = true
  | _ => True

structure B (fo : Nat → Nat) (s : St) (g : Nat → Stg) : Prop where
  q : ∀ r, .queue r ∈ s.ptrs ↔ r ∈ s.ids ∧ g r = .queued
  fl : ∀ r, r ∈ s.flying ↔ r ∈ s.ids ∧ g r = .fly
  flnd : s.flying.Nodup
  ow : ∀ t r, owned (s.thr t) = some r ↔ r ∈ s.ids ∧ g r = .own t
  lc : ∀ t r, .loc t r ∈ s.ptrs ↔ localOf (s.thr t) = some r
  ker : ∀ r, .kernel r ∈ s.ptrs ↔ (r ∈ s.ids ∧ g r = .fly) ∨ ∃ t, kernelOf (s.thr t) = some r
  cl : ∀ t r, cancelOf (s.thr t) = some r → .client t r ∈ s.ptrs
  st1 : ∀ r, r ∈ s.ids → g r = .queued ∨ g r = .fly → (s.reqs r).phase = .op ∧ (s.reqs r).file = some (fo r)
  st2 : ∀ r, r ∈ s.ids → g r = .fin → (s.reqs r).phase = .ready ∧ (s.reqs r).file = none
  fa : ∀ r, r ∈ s.ids → g r = .fly → (s.reqs r).aio = true
  pc : ∀ t, pcOk fo s.reqs (s.thr t)

/-- Files: the counters are right; deleted files have only finished requests. -/
structure C (fo : Nat → Nat) (s : St) : Prop where
  nref : ∀ f, s.nref f = s.ids.countP (fun r => (s.reqs r).file == some f)
  wt : ∀ r, r ∈ s.waited → r ∈ s.ids ∧ (s.reqs r).phase = .ready
  del : ∀ f, s.falive f = false → ∀ r, r ∈ s.ids → fo r = f → (s.reqs r).phase = .ready
  warn : s.warned = []

theorem owned_ptr {p : Pc} {r : Nat} (h : owned p = some r) : localOf p = some r ∨ kernelOf p = some r := by
  unfold owned at h
  split at h <;> (try cases h) <;> simp [localOf, kernelOf]
  rename_i k w
  cases w <;> simp [localOf, kernelOf]

/-- A request that is not finished has a reference by the library. -/
theorem B.busy {fo : Nat → Nat} {s : St} {g : Nat → Stg} (b : B fo s g) {r : Nat} (hr : r ∈ s.ids) (hp : (s.reqs r).phase ≠ .ready) :
    ∃ h ∈ s.ptrs, h.req = r ∧ (h = .queue r ∨ h = .kernel r ∨ ∃ t, h = .loc t r ∧ owned (s.thr t) = some r) := by
  cases hg : g r with
  | queued => exact ⟨_, (b.q r).2 ⟨hr, hg⟩, rfl, .inl rfl⟩
  | fly => exact ⟨_, (b.ker r).2 (.inl ⟨hr, hg⟩), rfl, .inr (.inl rfl)⟩
  | fin => exact absurd (b.st2 r hr hg).1 hp
  | own t =>
    have ho := (b.ow t r).2 ⟨hr, hg⟩
    rcases owned_ptr ho with h | h
    · exact ⟨_, (b.lc t r).2 h, rfl, .inr (.inr ⟨t, rfl, ho⟩)⟩
    · exact ⟨_, (b.ker r).2 (.inr ⟨t, h⟩), rfl, .inr (.inl rfl)⟩

/-- A finished request has no file, a request that is not finished but not released has its own. -/
theorem B.file {fo : Nat → Nat} {s : St} {g : Nat → Stg} (b : B fo s g) {r : Nat} (hr : r ∈ s.ids) :
    ((s.reqs r).phase = .ready → (s.reqs r).file = none) ∧ ((s.reqs r).file = none ∨ (s.reqs r).file = some (fo r)) := by
  cases hg : g r with
  | queued => have := b.st1 r hr (.inl hg); simp [this]
  | fly => have := b.st1 r hr (.inr hg); simp [this]
  | fin => have := b.st2 r hr hg; simp [this]
  | own t =>
    have ho := (b.ow t r).2 ⟨hr, hg⟩
    have hp := b.pc t
    cases hthr : s.thr t with
    | comp r' k w =>
      rw [hthr] at ho hp
      simp only [owned, Option.some.injEq] at ho
      subst ho
      simp only [pcOk] at hp
      cases k <;> simp [stepOk] at hp <;> simp [hp]
    | drop r' w =>
      rw [hthr] at ho hp
      cases w <;> simp [owned] at ho
      subst ho
      simp [pcOk] at hp
      simp [hp]
    | _ =>
      rw [hthr] at ho hp
      simp [owned, pcOk] at ho hp
      try (subst ho; simp [hp])

/-- The destructor of a pointer that is not the last one of an unfinished request. -/
theorem rm_ok {fo : Nat → Nat} {s : St} {g : Nat → Stg} (a : A s) (b : B fo s g) {h : Holder} (hh : h ∈ s.ptrs)
    (hn : (s.reqs h.req).phase = .op → ∃ h' ∈ s.ptrs, h' ≠ h ∧ h'.req = h.req) : ∃ s', s.rmPtr h = .ok s' := by
  unfold St.rmPtr
  split
  · rename_i h1
    split
    · rename_i h2
      obtain ⟨h', g1, g2, g3⟩ := hn h2
      have := a.two hh g1 (fun e => g2 e.symm) g3.symm
      omega
    · exact ⟨_, rfl⟩
  · exact ⟨_, rfl⟩

end Foxxll.Life
