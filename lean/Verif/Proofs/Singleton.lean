import Verif.Spec.Singleton
/-
Invariant of the singletons.
-/
set_option linter.unusedSimpArgs false
namespace Foxxll.Single

def Frame.sing : Frame → Nat
  | .test i => i
  | .lock i => i
  | .again i => i
  | .ctor i _ => i
  | .register i => i
  | .ret i => i

def Frame.holds : Frame → Bool
  | .test _ => false
  | .lock _ => false
  | _ => true

/-- Singletons whose mutex is held by the frames. -/
def held : List Frame → List Nat
  | [] => []
  | f :: fs => if f.holds then f.sing :: held fs else held fs

/-- The frames below a call for `j`: constructors that made this call; the singletons they got
before satisfy `P`. -/
def Below (dep : Nat → List Nat) (P : Nat → Prop) : Nat → List Frame → Prop
  | _, [] => True
  | j, .ctor i r :: fs => (∃ d, dep i = d ++ j :: r ∧ ∀ x ∈ d, P x) ∧ Below dep P i fs
  | _, _ :: _ => False

/-- The innermost frame. -/
def Top (dep : Nat → List Nat) (P : Nat → Prop) (inst : Nat → Ptr) (hs : List Nat) : Frame → Prop
  | .ctor i r => ∃ d, dep i = d ++ r ∧ ∀ x ∈ d, P x
  | .register i => inst i ≠ .null ∧ i ∉ hs ∧ ∀ x ∈ dep i, P x
  | .ret i => inst i ≠ .null ∧ i ∈ hs
  | _ => True

def Chain (dep : Nat → List Nat) (P : Nat → Prop) (inst : Nat → Ptr) (hs : List Nat) : List Frame → Prop
  | [] => True
  | f :: fs => Top dep P inst hs f ∧ Below dep P f.sing fs

structure Inv (dep : Nat → List Nat) (calm : Prop) (s : State) : Prop where
  own : ∀ t i, s.owner i = some t ↔ i ∈ held (s.stack t)
  nodup : ∀ t, (held (s.stack t)).Nodup
  chain : ∀ t, Chain dep (fun x => calm → x ∈ s.handlers) s.inst s.handlers (s.stack t)
  ctor : ∀ t i r, Frame.ctor i r ∈ s.stack t → s.inst i = .null
  regd : ∀ i, s.inst i ≠ .null → i ∈ s.handlers ∨ ∃ t fs, s.stack t = .register i :: fs
  hand : ∀ i ∈ s.handlers, s.inst i ≠ .null
  hnd : s.handlers.Nodup
  built : ∀ i k, s.inst i = .obj k ↔ (i, k) ∈ s.built
  bomb : ∀ i, s.inst i ≠ .bomb
  bnd : (s.built.map (·.1)).Nodup
  got : ∀ i p, (i, p) ∈ s.got → p = s.inst i ∧ p ≠ .null
  order : calm → ∀ a i b, s.handlers = a ++ i :: b → ∀ x ∈ dep i, x ∈ b

theorem below_ctor {dep P j fs} (h : Below dep P j fs) : ∀ f ∈ fs, ∃ i r, f = .ctor i r := by
  induction fs generalizing j with
  | nil => simp
  | cons f fs ih =>
    cases f with
    | ctor i r =>
      intro g hg
      rw [List.mem_cons] at hg
      rcases hg with rfl | hg
      · exact ⟨_, _, rfl⟩
      · exact ih h.2 g hg
    | test _ => exact h.elim
    | lock _ => exact h.elim
    | again _ => exact h.elim
    | register _ => exact h.elim
    | ret _ => exact h.elim

theorem below_mono {dep P Q j fs} (hp : ∀ x, P x → Q x) (h : Below dep P j fs) : Below dep Q j fs := by
  induction fs generalizing j with
  | nil => trivial
  | cons f fs ih =>
    cases f with
    | ctor i r =>
      obtain ⟨⟨d, h1, h2⟩, h3⟩ := h
      exact ⟨⟨d, h1, fun x hx => hp x (h2 x hx)⟩, ih h3⟩
    | test _ => exact h.elim
    | lock _ => exact h.elim
    | again _ => exact h.elim
    | register _ => exact h.elim
    | ret _ => exact h.elim

/-- Chains after a pop. -/
theorem chain_pop {dep P inst hs j fs} (h : Below dep P j fs) (hj : P j) : Chain dep P inst hs fs := by
  cases fs with
  | nil => trivial
  | cons f fs =>
    cases f with
    | ctor i r =>
      obtain ⟨⟨d, h1, h2⟩, h3⟩ := h
      refine ⟨⟨d ++ [j], by simp [h1], ?_⟩, h3⟩
      intro x hx
      rw [List.mem_append, List.mem_singleton] at hx
      rcases hx with hx | rfl
      · exact h2 x hx
      · exact hj
    | test _ => exact h.elim
    | lock _ => exact h.elim
    | again _ => exact h.elim
    | register _ => exact h.elim
    | ret _ => exact h.elim

theorem set_same {α : Type} (f : Nat → α) (i : Nat) (a : α) : set f i a i = a := by simp [set]

theorem set_other {α : Type} (f : Nat → α) {i j : Nat} (a : α) (h : j ≠ i) : set f i a j = f j := by simp [set, h]

/-- Ownership and distinctness only depend on the held mutexes. -/
theorem own_same {s : State} {t : Nat} {st : List Frame} (h : held st = held (s.stack t))
    (own : ∀ t i, s.owner i = some t ↔ i ∈ held (s.stack t)) (nd : ∀ t, (held (s.stack t)).Nodup) :
    (∀ u i, s.owner i = some u ↔ i ∈ held (set s.stack t st u)) ∧ (∀ u, (held (set s.stack t st u)).Nodup) := by
  constructor
  · intro u i
    by_cases hu : u = t
    · rw [hu, set_same, h]; exact own t i
    · rw [set_other _ _ hu]; exact own u i
  · intro u
    by_cases hu : u = t
    · rw [hu, set_same, h]; exact nd t
    · rw [set_other _ _ hu]; exact nd u

theorem forall_set {s : State} {t : Nat} {st : List Frame} {Q : List Frame → Prop} (h : Q st) (ho : ∀ u, Q (s.stack u)) (u : Nat) :
    Q (set s.stack t st u) := by
  by_cases hu : u = t
  · rw [hu, set_same]; exact h
  · rw [set_other _ _ hu]; exact ho u

/-- If the thread does not stand before the registration, nothing about registration changes. -/
theorem regd_set {s : State} {t : Nat} {st : List Frame} (hst : ∀ i fs, s.stack t ≠ .register i :: fs)
    (h : ∀ i, s.inst i ≠ .null → i ∈ s.handlers ∨ ∃ t fs, s.stack t = .register i :: fs) :
    ∀ i, s.inst i ≠ .null → i ∈ s.handlers ∨ ∃ u fs, set s.stack t st u = .register i :: fs := by
  intro i hi
  rcases h i hi with h | ⟨u, fs, h⟩
  · exact .inl h
  · refine .inr ⟨u, fs, ?_⟩
    rw [set_other]; exact h
    rintro rfl; exact hst _ _ h

theorem unwind_eq (owner : Nat → Option Nat) (fs : List Frame) (h : ∀ f ∈ fs, ∃ i r, f = .ctor i r) (j : Nat) :
    unwind owner fs j = if j ∈ held fs then none else owner j := by
  induction fs generalizing owner with
  | nil => simp [unwind, held]
  | cons f fs ih =>
    obtain ⟨i, r, rfl⟩ := h f (by simp)
    simp only [unwind]
    rw [ih _ (fun f hf => h f (by simp [hf]))]
    simp only [held, Frame.holds, if_true, Frame.sing, List.mem_cons]
    by_cases h1 : j ∈ held fs
    · simp [h1]
    · by_cases h2 : j = i
      · simp [h1, h2, set]
      · simp [h1, h2, set]

theorem mem_held {fs : List Frame} {f : Frame} (h : f ∈ fs) (hf : f.holds = true) : f.sing ∈ held fs := by
  induction fs with
  | nil => cases h
  | cons g fs ih =>
    rw [List.mem_cons] at h
    rcases h with rfl | h
    · simp [held, hf]
    · simp only [held]; split
      · exact List.mem_cons_of_mem _ (ih h)
      · exact ih h

variable {dep : Nat → List Nat} {calm : Prop}

theorem inv_init : Inv dep calm init where
  own := by intro t i; simp [init, held]
  nodup := by intro t; simp [init, held]
  chain := by intro t; simp [init, Chain]
  ctor := by intro t i r h; simp [init] at h
  regd := by intro i h; exact absurd rfl h
  hand := by intro i h; simp [init] at h
  hnd := by simp [init]
  built := by intro i k; simp [init]
  bomb := by intro i; simp [init]
  bnd := by simp [init]
  got := by intro i p h; simp [init] at h
  order := by intro _ a i b h; simp [init] at h

/-- A step that changes one stack only. -/
theorem inv_stack {s : State} {t : Nat} {st : List Frame} (I : Inv dep calm s) (hh : held st = held (s.stack t))
    (hc : Chain dep (fun x => calm → x ∈ s.handlers) s.inst s.handlers st) (hn : ∀ i r, .ctor i r ∈ st → s.inst i = .null)
    (hr : ∀ i fs, s.stack t ≠ .register i :: fs) (l : List (Nat × Ptr)) (hl : ∀ i p, (i, p) ∈ l → p = s.inst i ∧ p ≠ .null) :
    Inv dep calm { s with stack := set s.stack t st, got := s.got ++ l } where
  own := (own_same hh I.own I.nodup).1
  nodup := (own_same hh I.own I.nodup).2
  chain := fun u => forall_set hc I.chain u
  ctor := fun u i r => forall_set (Q := fun st => .ctor i r ∈ st → s.inst i = .null) (hn i r) (fun u => I.ctor u i r) u
  regd := regd_set hr I.regd
  hand := I.hand
  hnd := I.hnd
  built := I.built
  bomb := I.bomb
  bnd := I.bnd
  got := by
    intro i p h
    rw [List.mem_append] at h
    rcases h with h | h
    · exact I.got i p h
    · exact hl i p h
  order := I.order

/-- The chain of the other threads when `inst i` becomes non-null. -/
theorem chain_inst {P : Nat → Prop} {inst inst' : Nat → Ptr} {hs : List Nat} {st : List Frame}
    (h : ∀ j, inst j ≠ .null → inst' j ≠ .null) (hc : Chain dep P inst hs st) : Chain dep P inst' hs st := by
  cases st with
  | nil => trivial
  | cons f fs =>
    refine ⟨?_, hc.2⟩
    cases f with
    | ctor i r => exact hc.1
    | register i => exact ⟨h i hc.1.1, hc.1.2⟩
    | ret i => exact ⟨h i hc.1.1, hc.1.2⟩
    | _ => trivial

theorem chain_hand {P Q : Nat → Prop} {inst : Nat → Ptr} {hs : List Nat} {i : Nat} {st : List Frame}
    (h : ∀ j, P j → Q j) (hi : i ∉ held st) (hc : Chain dep P inst hs st) : Chain dep Q inst (i :: hs) st := by
  cases st with
  | nil => trivial
  | cons f fs =>
    refine ⟨?_, below_mono h hc.2⟩
    cases f with
    | ctor j r =>
      obtain ⟨d, h1, h2⟩ := hc.1
      exact ⟨d, h1, fun x hx => h x (h2 x hx)⟩
    | register j =>
      obtain ⟨h1, h2, h3⟩ := hc.1
      refine ⟨h1, ?_, fun x hx => h x (h3 x hx)⟩
      rw [List.mem_cons]; rintro (rfl | h4)
      · apply hi; simp [held, Frame.holds, Frame.sing]
      · exact h2 h4
    | ret j => exact ⟨hc.1.1, List.mem_cons_of_mem _ hc.1.2⟩
    | _ => trivial

theorem step_inv {s s' : State} {a : Act} (I : Inv dep calm s) (hcalm : calm → ¬ Early s a) (h : step dep s a = some s') :
    Inv dep calm s' := by
  cases a with
  | call t i =>
    simp only [step] at h
    split at h
    · rename_i hst
      cases h
      have := inv_stack (t := t) (st := [.test i]) I (by rw [hst]; rfl) ⟨trivial, trivial⟩ (by simp) (by simp [hst]) [] (by simp)
      rw [List.append_nil] at this
      exact this
    · cases h
  | throw t =>
    simp only [step] at h
    split at h
    · rename_i i r fs hst
      cases h
      have hC := I.chain t
      rw [hst] at hC
      have hall : ∀ f ∈ Frame.ctor i r :: fs, ∃ i r, f = .ctor i r := by
        intro f hf
        rw [List.mem_cons] at hf
        rcases hf with rfl | hf
        · exact ⟨_, _, rfl⟩
        · exact below_ctor hC.2 f hf
      refine { own := ?_, nodup := ?_, chain := fun u => forall_set trivial I.chain u, ctor := ?_, regd := regd_set (by simp [hst]) I.regd, hand := I.hand, hnd := I.hnd, built := I.built, bomb := I.bomb, bnd := I.bnd, got := I.got, order := I.order }
      · intro u j
        show unwind s.owner (.ctor i r :: fs) j = some u ↔ j ∈ held (set s.stack t [] u)
        rw [unwind_eq _ _ hall, ← hst]
        by_cases hu : u = t
        · rw [hu, set_same]
          simp only [held, List.not_mem_nil, iff_false]
          split
          · simp
          · rename_i hn; rw [I.own]; exact hn
        · rw [set_other _ _ hu]
          split
          · rename_i hn
            rw [← I.own] at hn
            rw [← I.own, hn]; simp; exact fun e => hu e.symm
          · rw [I.own]
      · intro u; exact forall_set (t := t) (st := []) (Q := fun st => (held st).Nodup) List.nodup_nil I.nodup u
      · intro u j q
        exact forall_set (t := t) (st := []) (Q := fun st => .ctor j q ∈ st → s.inst j = .null) (fun h => nomatch h) (fun u => I.ctor u j q) u
    · cases h
  | go t =>
    have hC := I.chain t
    have hK := I.ctor t
    simp only [step] at h
    split at h
    · cases h
    · -- test
      rename_i i fs hst
      rw [hst] at hC hK
      split at h
      · cases h
        have := inv_stack (t := t) (st := .lock i :: fs) I (by rw [hst]; rfl) ⟨trivial, hC.2⟩ (by simpa using hK) (by simp [hst]) [] (by simp)
        rw [List.append_nil] at this
        exact this
      · rename_i hi
        cases h
        refine inv_stack (t := t) (st := fs) I (by rw [hst]; rfl) (chain_pop hC.2 ?_) (by simpa using hK) (by simp [hst]) _ ?_
        · intro hc
          by_cases hm : i ∈ s.handlers
          · exact hm
          · exact absurd ⟨t, i, fs, rfl, hst, hi, hm⟩ (hcalm hc)
        · intro j p hjp
          rw [List.mem_singleton] at hjp
          cases hjp
          exact ⟨rfl, hi⟩
    · -- lock
      rename_i i fs hst
      rw [hst] at hC hK
      split at h
      · rename_i hi
        cases h
        have hni : ∀ u, i ∉ held (s.stack u) := by
          intro u hu; rw [← I.own, hi] at hu; cases hu
        have hhe : held (s.stack t) = held fs := by rw [hst]; rfl
        refine { own := ?_, nodup := ?_, chain := fun u => forall_set ⟨trivial, hC.2⟩ I.chain u, ctor := ?_, regd := regd_set (by simp [hst]) I.regd, hand := I.hand, hnd := I.hnd, built := I.built, bomb := I.bomb, bnd := I.bnd, got := I.got, order := I.order }
        · intro u j
          show set s.owner i (some t) j = some u ↔ j ∈ held (set s.stack t (.again i :: fs) u)
          by_cases hj : j = i
          · rw [hj, set_same]
            by_cases hu : u = t
            · rw [hu, set_same]; simp [held, Frame.holds, Frame.sing]
            · rw [set_other _ _ hu]; simp [hni u]; exact fun e => hu e.symm
          · rw [set_other _ _ hj, I.own]
            by_cases hu : u = t
            · rw [hu, set_same, hhe]; simp [held, Frame.holds, Frame.sing, hj]
            · rw [set_other _ _ hu]
        · intro u
          refine forall_set (t := t) (st := .again i :: fs) (Q := fun st => (held st).Nodup) ?_ I.nodup u
          simp only [held, Frame.holds, if_true, Frame.sing, List.nodup_cons]
          rw [← hhe]; exact ⟨hni t, I.nodup t⟩
        · intro u j q
          exact forall_set (t := t) (st := .again i :: fs) (Q := fun st => .ctor j q ∈ st → s.inst j = .null) (by simpa using hK j q) (fun u => I.ctor u j q) u
      · cases h
    · -- again
      rename_i i fs hst
      rw [hst] at hC hK
      split at h
      · rename_i hi
        cases h
        have := inv_stack (t := t) (st := .ctor i (dep i) :: fs) I (by rw [hst]; rfl) ⟨⟨[], rfl, by simp⟩, hC.2⟩
          (by intro j r hj
              rw [List.mem_cons] at hj
              rcases hj with hj | hj
              · cases hj; exact hi
              · exact hK j r (List.mem_cons_of_mem _ hj)) (by simp [hst]) [] (by simp)
        rw [List.append_nil] at this
        exact this
      · rename_i hi
        cases h
        have hin : i ∈ s.handlers := by
          rcases I.regd i hi with h | ⟨u, gs, hu⟩
          · exact h
          · have h1 : s.owner i = some t := by rw [I.own, hst]; simp [held, Frame.holds, Frame.sing]
            have h2 : s.owner i = some u := by rw [I.own, hu]; simp [held, Frame.holds, Frame.sing]
            rw [h1] at h2; cases h2
            rw [hst] at hu; cases hu
        have := inv_stack (t := t) (st := .ret i :: fs) I (by rw [hst]; rfl) ⟨⟨hi, hin⟩, hC.2⟩ (by simpa using hK) (by simp [hst]) [] (by simp)
        rw [List.append_nil] at this
        exact this
    · -- call in the constructor
      rename_i i j r fs hst
      rw [hst] at hC hK
      cases h
      obtain ⟨d, hd, hP⟩ := hC.1
      have := inv_stack (t := t) (st := .test j :: .ctor i r :: fs) I (by rw [hst]; rfl) ⟨trivial, ⟨d, hd, hP⟩, hC.2⟩
        (by intro k q hk
            rw [List.mem_cons, List.mem_cons] at hk
            rcases hk with hk | hk | hk
            · cases hk
            · cases hk; exact hK i (j :: r) (by simp)
            · exact hK k q (by simp [hk])) (by simp [hst]) [] (by simp)
      rw [List.append_nil] at this
      exact this
    · -- the constructor returns
      rename_i i fs hst
      rw [hst] at hC hK
      cases h
      have hnull : s.inst i = .null := hK i [] (by simp)
      have hown : s.owner i = some t := by rw [I.own, hst]; simp [held, Frame.holds, Frame.sing]
      have hhe : held (.register i :: fs) = held (s.stack t) := by rw [hst]; rfl
      have hni : i ∉ held fs := by
        have := I.nodup t
        rw [hst] at this
        simp only [held, Frame.holds, if_true, Frame.sing, List.nodup_cons] at this
        exact this.1
      obtain ⟨d, hd, hP⟩ := hC.1
      rw [List.append_nil] at hd
      have hmono : ∀ j, s.inst j ≠ .null → set s.inst i (.obj s.built.length) j ≠ .null := by
        intro j hj; unfold set; split
        · simp
        · exact hj
      have hbi : i ∉ s.built.map (·.1) := by
        intro hb
        rw [List.mem_map] at hb
        obtain ⟨⟨j, k⟩, h1, h2⟩ := hb
        cases h2
        rw [← I.built, hnull] at h1; cases h1
      refine { own := (own_same hhe I.own I.nodup).1, nodup := (own_same hhe I.own I.nodup).2, chain := ?_, ctor := ?_, regd := ?_, hand := ?_, hnd := I.hnd, built := ?_, bomb := ?_, bnd := ?_, got := ?_, order := I.order }
      · intro u
        refine forall_set (t := t) (st := .register i :: fs) (Q := Chain dep (fun x => calm → x ∈ s.handlers) (set s.inst i (.obj s.built.length)) s.handlers) ⟨⟨?_, ?_, ?_⟩, hC.2⟩ (fun u => chain_inst hmono (I.chain u)) u
        · simp [set]
        · intro hm; exact I.hand i hm hnull
        · rw [hd]; exact hP
      · intro u j q hm
        dsimp only at hm
        show set s.inst i _ j = .null
        have hm' : Frame.ctor j q ∈ s.stack u ∧ (u = t → Frame.ctor j q ∈ fs) := by
          by_cases hu : u = t
          · rw [hu, set_same, List.mem_cons] at hm
            rcases hm with hm | hm
            · cases hm
            · rw [hu, hst]; exact ⟨List.mem_cons_of_mem _ hm, fun _ => hm⟩
          · rw [set_other _ _ hu] at hm; exact ⟨hm, fun e => absurd e hu⟩
        by_cases hj : j = i
        · subst hj
          have h1 : s.owner j = some u := by rw [I.own]; exact mem_held hm'.1 rfl
          rw [hown] at h1; cases h1
          exact absurd (mem_held (hm'.2 rfl) rfl) hni
        · rw [set_other _ _ hj]; exact I.ctor u j q hm'.1
      · intro j hj
        dsimp only at hj
        by_cases hji : j = i
        · right; exact ⟨t, fs, by rw [hji]; exact set_same _ _ _⟩
        · rw [set_other _ _ hji] at hj
          exact regd_set (st := .register i :: fs) (by simp [hst]) I.regd j hj
      · intro j hj; exact hmono j (I.hand j hj)
      · intro j k
        show set s.inst i (.obj s.built.length) j = .obj k ↔ (j, k) ∈ s.built ++ [(i, s.built.length)]
        rw [List.mem_append, List.mem_singleton]
        by_cases hj : j = i
        · rw [hj, set_same]
          constructor
          · intro e; cases e; exact .inr rfl
          · rintro (e | e)
            · exact absurd (List.mem_map.mpr ⟨_, e, rfl⟩) hbi
            · cases e; rfl
        · rw [set_other _ _ hj, I.built]
          constructor
          · exact .inl
          · rintro (e | e)
            · exact e
            · cases e; exact absurd rfl hj
      · intro j; show set s.inst i _ j ≠ _
        unfold set; split
        · simp
        · exact I.bomb j
      · show ((s.built ++ [(i, s.built.length)]).map (·.1)).Nodup
        rw [List.map_append, List.nodup_append]
        refine ⟨I.bnd, by simp, ?_⟩
        intro x hx y hy
        simp only [List.map_cons, List.map_nil, List.mem_singleton] at hy
        rw [hy]; rintro rfl; exact hbi hx
      · intro j p hp
        obtain ⟨h1, h2⟩ := I.got j p hp
        refine ⟨?_, h2⟩
        show p = set s.inst i _ j
        by_cases hj : j = i
        · rw [hj] at h1; rw [h1] at h2; exact absurd hnull h2
        · rw [set_other _ _ hj]; exact h1
    · -- registration
      rename_i i fs hst
      rw [hst] at hC hK
      cases h
      obtain ⟨h1, h2, h3⟩ := hC.1
      have hown : s.owner i = some t := by rw [I.own, hst]; simp [held, Frame.holds, Frame.sing]
      have hhe : held (.ret i :: fs) = held (s.stack t) := by rw [hst]; rfl
      refine { own := (own_same hhe I.own I.nodup).1, nodup := (own_same hhe I.own I.nodup).2, chain := ?_, ctor := ?_, regd := ?_, hand := ?_, hnd := ?_, built := I.built, bomb := I.bomb, bnd := I.bnd, got := I.got, order := ?_ }
      · intro u
        show Chain dep (fun x => calm → x ∈ i :: s.handlers) s.inst (i :: s.handlers) (set s.stack t (.ret i :: fs) u)
        by_cases hu : u = t
        · rw [hu, set_same]
          exact ⟨⟨h1, by simp⟩, below_mono (fun x hx hc => List.mem_cons_of_mem _ (hx hc)) hC.2⟩
        · rw [set_other _ _ hu]
          refine chain_hand (fun x hx hc => List.mem_cons_of_mem _ (hx hc)) ?_ (I.chain u)
          rw [← I.own, hown]; simp; exact fun e => hu e.symm
      · intro u j q
        exact forall_set (t := t) (st := .ret i :: fs) (Q := fun st => .ctor j q ∈ st → s.inst j = .null) (by simpa using hK j q) (fun u => I.ctor u j q) u
      · intro j hj
        by_cases hji : j = i
        · left; rw [hji]; exact List.mem_cons_self
        · rcases I.regd j hj with h | ⟨u, gs, hu⟩
          · exact .inl (List.mem_cons_of_mem _ h)
          · right
            refine ⟨u, gs, ?_⟩
            show set s.stack t (.ret i :: fs) u = .register j :: gs
            rw [set_other]
            · exact hu
            · rintro rfl; rw [hst] at hu; cases hu; exact hji rfl
      · intro j hj
        rw [List.mem_cons] at hj
        rcases hj with rfl | hj
        · exact h1
        · exact I.hand j hj
      · exact List.nodup_cons.mpr ⟨h2, I.hnd⟩
      · intro hc a j b hab x hx
        cases a with
        | nil =>
          simp only [List.nil_append, List.cons.injEq] at hab
          obtain ⟨rfl, rfl⟩ := hab
          exact h3 x hx hc
        | cons c a =>
          simp only [List.cons_append, List.cons.injEq] at hab
          exact I.order hc a j b hab.2 x hx
    · -- return
      rename_i i fs hst
      rw [hst] at hC hK
      cases h
      have hnd := I.nodup t
      rw [hst] at hnd
      simp only [held, Frame.holds, if_true, Frame.sing, List.nodup_cons] at hnd
      have hown : s.owner i = some t := by rw [I.own, hst]; simp [held, Frame.holds, Frame.sing]
      refine { own := ?_, nodup := ?_, chain := fun u => forall_set (chain_pop hC.2 (fun _ => hC.1.2)) I.chain u, ctor := ?_, regd := regd_set (by simp [hst]) I.regd, hand := I.hand, hnd := I.hnd, built := I.built, bomb := I.bomb, bnd := I.bnd, got := ?_, order := I.order }
      · intro u j
        show set s.owner i none j = some u ↔ j ∈ held (set s.stack t fs u)
        by_cases hj : j = i
        · rw [hj, set_same]
          by_cases hu : u = t
          · rw [hu, set_same]; simp [hnd.1]
          · rw [set_other _ _ hu, ← I.own, hown]; simp; exact fun e => hu e.symm
        · rw [set_other _ _ hj, I.own]
          by_cases hu : u = t
          · rw [hu, set_same, hst]; simp [held, Frame.holds, Frame.sing, hj]
          · rw [set_other _ _ hu]
      · intro u; exact forall_set (t := t) (st := fs) (Q := fun st => (held st).Nodup) hnd.2 I.nodup u
      · intro u j q
        exact forall_set (t := t) (st := fs) (Q := fun st => .ctor j q ∈ st → s.inst j = .null) (by simpa using hK j q) (fun u => I.ctor u j q) u
      · intro j p hp
        rw [List.mem_append, List.mem_singleton] at hp
        rcases hp with hp | hp
        · exact I.got j p hp
        · cases hp; exact ⟨rfl, hC.1.1⟩

theorem run_inv {s s' : State} {as : List Act} (I : Inv dep calm s) (hc : calm → NeverEarly dep s as) (h : run dep s as = some s') :
    Inv dep calm s' := by
  induction as generalizing s with
  | nil => cases h; exact I
  | cons a as ih =>
    simp only [run] at h
    split at h
    · cases h
    · rename_i s1 hs1
      exact ih (step_inv I (fun c => (hc c).1) hs1) (fun c => (hc c).2 s1 hs1) h

theorem reach_inv {s : State} (h : Reach dep s) : Inv dep False s := by
  obtain ⟨as, h⟩ := h
  exact run_inv inv_init (fun f => f.elim) h

/-! ### Deadlock -/

/-- A thread that cannot make a step waits for a mutex. -/
theorem stuck {s : State} {t : Nat} (hb : busy s t) (h : step dep s (.go t) = none) :
    ∃ i fs u, s.stack t = .lock i :: fs ∧ s.owner i = some u := by
  unfold busy at hb
  simp only [step] at h
  split at h
  · rename_i e; exact absurd e hb
  · split at h <;> cases h
  · rename_i i fs hst
    split at h
    · cases h
    · rename_i ho
      cases hu : s.owner i with
      | none => exact absurd hu ho
      | some u => exact ⟨i, fs, u, hst, hu⟩
  · split at h <;> cases h
  all_goals cases h

/-- Ranks fall from the outermost to the innermost call. -/
theorem below_rank {P : Nat → Prop} {rank : Nat → Nat} (hr : ∀ i, ∀ j ∈ dep i, rank j < rank i) {j i : Nat} {fs : List Frame}
    (h : Below dep P j fs) (hi : i ∈ held fs) : rank j < rank i := by
  induction fs generalizing j with
  | nil => cases hi
  | cons f fs ih =>
    cases f with
    | ctor k r =>
      obtain ⟨⟨d, hd, _⟩, h3⟩ := h
      have hjk : rank j < rank k := hr k j (by rw [hd]; simp)
      simp only [held, Frame.holds, if_true, Frame.sing, List.mem_cons] at hi
      rcases hi with rfl | hi
      · exact hjk
      · exact Nat.lt_trans hjk (ih h3 hi)
    | test _ => exact h.elim
    | lock _ => exact h.elim
    | again _ => exact h.elim
    | register _ => exact h.elim
    | ret _ => exact h.elim

theorem no_deadlock {s : State} {rank : Nat → Nat} (hr : ∀ i, ∀ j ∈ dep i, rank j < rank i) (I : Inv dep calm s) :
    ∀ n t i fs, s.stack t = .lock i :: fs → rank i ≤ n → ∃ u, step dep s (.go u) ≠ none := by
  intro n
  induction n with
  | zero =>
    intro t i fs hst hn
    cases h : step dep s (.go t) with
    | some s' => exact ⟨t, by rw [h]; simp⟩
    | none =>
      obtain ⟨i', fs', u, h1, h2⟩ := stuck (by rw [busy, hst]; simp) h
      rw [hst] at h1; cases h1
      cases h' : step dep s (.go u) with
      | some s' => exact ⟨u, by rw [h']; simp⟩
      | none =>
        have hheld := (I.own u i).mp h2
        obtain ⟨j, gs, v, h3, _⟩ := stuck (by rw [busy]; intro e; rw [e] at hheld; cases hheld) h'
        rw [h3] at hheld
        have hc := I.chain u
        rw [h3] at hc
        have := below_rank hr hc.2 (i := i) hheld
        omega
  | succ n ih =>
    intro t i fs hst hn
    cases h : step dep s (.go t) with
    | some s' => exact ⟨t, by rw [h]; simp⟩
    | none =>
      obtain ⟨i', fs', u, h1, h2⟩ := stuck (by rw [busy, hst]; simp) h
      rw [hst] at h1; cases h1
      cases h' : step dep s (.go u) with
      | some s' => exact ⟨u, by rw [h']; simp⟩
      | none =>
        have hheld := (I.own u i).mp h2
        obtain ⟨j, gs, v, h3, _⟩ := stuck (by rw [busy]; intro e; rw [e] at hheld; cases hheld) h'
        rw [h3] at hheld
        have hc := I.chain u
        rw [h3] at hc
        have := below_rank hr hc.2 (i := i) hheld
        simp only [Frame.sing] at this
        exact ih u j gs h3 (by omega)

/-! ### Exit -/

theorem missing_none {inst : Nat → Ptr} {l : List Nat} (h : ∀ j ∈ l, ∃ k, inst j = .obj k) : missing inst l = none := by
  induction l with
  | nil => rfl
  | cons j l ih =>
    obtain ⟨k, hk⟩ := h j (by simp)
    simp only [missing, hk]
    exact ih (fun j hj => h j (by simp [hj]))

theorem exit_ok {use : Nat → List Nat} {inst : Nat → Ptr} {hs : List Nat} (hnd : hs.Nodup) (ho : ∀ j ∈ hs, ∃ k, inst j = .obj k)
    (hu : ∀ a i b, hs = a ++ i :: b → ∀ x ∈ use i, x ∈ b) : exit use inst hs = .ok hs := by
  induction hs generalizing inst with
  | nil => rfl
  | cons i is ih =>
    rw [List.nodup_cons] at hnd
    have hne : ∀ j ∈ is, set inst i .bomb j = inst j := by
      intro j hj; apply set_other; rintro rfl; exact hnd.1 hj
    have h1 : missing (set inst i .bomb) (use i) = none := by
      apply missing_none
      intro j hj
      have hm := hu [] i is rfl j hj
      rw [hne j hm]; exact ho j (by simp [hm])
    have h2 := ih (inst := set inst i .bomb) hnd.2 (fun j hj => by rw [hne j hj]; exact ho j (by simp [hj]))
      (fun a k b hab => hu (i :: a) k b (by rw [hab]; rfl))
    simp only [exit, h1, h2]

/-! ### One thread -/

theorem step_stack {s s' : State} {a : Act} (h : step dep s a = some s') {u : Nat} (hu : u ≠ a.thread) : s'.stack u = s.stack u := by
  cases a with
  | call t i =>
    simp only [step] at h
    split at h <;> cases h
    exact set_other _ _ hu
  | throw t =>
    simp only [step] at h
    split at h <;> cases h
    exact set_other _ _ hu
  | go t =>
    simp only [step] at h
    split at h
    · cases h
    · split at h <;> cases h <;> exact set_other _ _ hu
    · split at h <;> cases h
      exact set_other _ _ hu
    · split at h <;> cases h <;> exact set_other _ _ hu
    all_goals (cases h; exact set_other _ _ hu)

theorem single_calm {s : State} {t : Nat} {as : List Act} (I : Inv dep True s) (ho : ∀ u, u ≠ t → s.stack u = [])
    (ht : ∀ a ∈ as, a.thread = t) : NeverEarly dep s as := by
  induction as generalizing s with
  | nil => trivial
  | cons a as ih =>
    have hE : ¬ Early s a := by
      rintro ⟨v, i, fs, rfl, hst, hi, hn⟩
      have hv : v = t := ht (.go v) (by simp)
      subst hv
      rcases I.regd i hi with h | ⟨u, gs, h⟩
      · exact hn h
      · by_cases hu : u = v
        · rw [hu, hst] at h; cases h
        · rw [ho u hu] at h; cases h
    refine ⟨hE, ?_⟩
    intro s' hs'
    refine ih (step_inv I (fun _ => hE) hs') ?_ (fun a ha => ht a (by simp [ha]))
    intro u hu
    rw [step_stack hs' (by rw [ht a (by simp)]; exact hu)]
    exact ho u hu

/-! ### Every call ends -/

/-- Steps of a call of `get_instance`, for singletons of rank below `n`. -/
def cost (dep : Nat → List Nat) : Nat → Nat → Nat
  | 0, _ => 6
  | n + 1, i => 6 + ((dep i).map (fun j => cost dep n j + 1)).sum

theorem cost_fuel {rank : Nat → Nat} (hr : ∀ i, ∀ j ∈ dep i, rank j < rank i) (n m i : Nat) (hn : rank i ≤ n) (hm : rank i ≤ m) :
    cost dep n i = cost dep m i := by
  induction n generalizing m i with
  | zero =>
    have hd : dep i = [] := by
      cases h : dep i with
      | nil => rfl
      | cons j l => have := hr i j (by rw [h]; simp); omega
    cases m with
    | zero => rfl
    | succ m => simp [cost, hd]
  | succ n ih =>
    cases m with
    | zero =>
      have hd : dep i = [] := by
        cases h : dep i with
        | nil => rfl
        | cons j l => have := hr i j (by rw [h]; simp); omega
      simp [cost, hd]
    | succ m =>
      simp only [cost]
      congr 2
      apply List.map_congr_left
      intro j hj
      have := hr i j hj
      rw [ih m j (by omega) (by omega)]

/-- Steps of a frame. -/
def Frame.weight (c dep' : Nat → Nat) : Frame → Nat
  | .test i => c i
  | .lock i => dep' i + 5
  | .again i => dep' i + 4
  | .ctor _ r => (r.map (fun j => c j + 1)).sum + 3
  | .register _ => 2
  | .ret _ => 1

theorem step_weight {s s' : State} {t : Nat} (c : Nat → Nat) (hc : ∀ i, c i = 6 + ((dep i).map (fun j => c j + 1)).sum) (h : step dep s (.go t) = some s') :
    ((s'.stack t).map (Frame.weight c (fun i => ((dep i).map (fun j => c j + 1)).sum))).sum < ((s.stack t).map (Frame.weight c (fun i => ((dep i).map (fun j => c j + 1)).sum))).sum := by
  simp only [step] at h
  split at h
  · cases h
  · rename_i i fs hst
    split at h <;> cases h <;> simp [set_same, hst, Frame.weight, hc i] <;> omega
  · rename_i i fs hst
    split at h <;> cases h
    simp [set_same, hst, Frame.weight]
  · rename_i i fs hst
    split at h <;> cases h <;> simp [set_same, hst, Frame.weight] <;> omega
  · rename_i i j r fs hst
    cases h
    simp [set_same, hst, Frame.weight]; omega
  · rename_i i fs hst
    cases h
    simp [set_same, hst, Frame.weight]
  · rename_i i fs hst
    cases h
    simp [set_same, hst, Frame.weight]
  · rename_i i fs hst
    cases h
    simp [set_same, hst, Frame.weight]

/-- Sum over threads. -/
theorem sum_lt {f g : Nat → Nat} {T : List Nat} {t : Nat} (ht : t ∈ T) (hn : T.Nodup) (hlt : g t < f t) (he : ∀ u, u ≠ t → g u = f u) :
    (T.map g).sum < (T.map f).sum := by
  induction T with
  | nil => cases ht
  | cons u T ih =>
    rw [List.nodup_cons] at hn
    simp only [List.map_cons, List.sum_cons]
    by_cases hu : u = t
    · subst hu
      have : T.map g = T.map f := by
        apply List.map_congr_left
        intro v hv; apply he; rintro rfl; exact hn.1 hv
      rw [this]; omega
    · rw [List.mem_cons] at ht
      have := ih (ht.resolve_left (fun e => hu e.symm)) hn.2
      rw [he u hu]; omega

theorem go_thread {s s' : State} {t : Nat} (h : step dep s (.go t) = some s') : s.stack t ≠ [] := by
  intro e; simp only [step, e] at h; cases h

theorem bounded {s s' : State} {as : List Act} {T : List Nat} (c : Nat → Nat) (hc : ∀ i, c i = 6 + ((dep i).map (fun j => c j + 1)).sum) (hn : T.Nodup)
    (hT : ∀ t, s.stack t ≠ [] → t ∈ T) (hg : ∀ a ∈ as, ∃ t, a = .go t) (h : run dep s as = some s') :
    as.length ≤ (T.map (fun t => ((s.stack t).map (Frame.weight c (fun i => ((dep i).map (fun j => c j + 1)).sum))).sum)).sum := by
  induction as generalizing s with
  | nil => simp
  | cons a as ih =>
    obtain ⟨t, rfl⟩ := hg a (by simp)
    simp only [run] at h
    split at h
    · cases h
    · rename_i s1 hs1
      have ht := hT t (go_thread hs1)
      have hoth : ∀ u, u ≠ t → s1.stack u = s.stack u := fun u hu => step_stack hs1 hu
      have h1 := ih (s := s1) (by
        intro u hu
        by_cases e : u = t
        · rw [e]; exact ht
        · rw [hoth u e] at hu; exact hT u hu) (fun a ha => hg a (by simp [ha])) h
      have h2 := sum_lt (f := fun t => ((s.stack t).map (Frame.weight c (fun i => ((dep i).map (fun j => c j + 1)).sum))).sum)
        (g := fun t => ((s1.stack t).map (Frame.weight c (fun i => ((dep i).map (fun j => c j + 1)).sum))).sum) ht hn (step_weight c hc hs1)
        (fun u hu => by simp only [hoth u hu])
      simp only [List.length_cons]
      omega

theorem le_sum {l : List Nat} {t : Nat} (h : t ∈ l) : t ≤ l.sum := by
  induction l with
  | nil => cases h
  | cons a l ih =>
    rw [List.mem_cons] at h
    rw [List.sum_cons]
    rcases h with rfl | h
    · omega
    · have := ih h; omega

/-- Only threads that acted are inside `get_instance`. -/
theorem run_threads {s s' : State} {as : List Act} (h : run dep s as = some s') {u : Nat} (hu : ∀ a ∈ as, a.thread ≠ u) :
    s'.stack u = s.stack u := by
  induction as generalizing s with
  | nil => cases h; rfl
  | cons a as ih =>
    simp only [run] at h
    split at h
    · cases h
    · rename_i s1 hs1
      rw [ih h (fun a ha => hu a (by simp [ha]))]
      exact step_stack hs1 (fun e => hu a (by simp) e.symm)

end Foxxll.Single
