/-
Invariants of the linuxaio queue.
-/
import Verif.Model.Linuxaio
set_option linter.unusedSimpArgs false
set_option linter.unusedVariables false

namespace Foxxll.Aio

/-! ### Accounting by position -/

/-- Requests taken from the list and not yet submitted. -/
def pHeld : PPc → List Nat
  | .collect l | .collect2 l | .giveBack l | .getFree l | .submit l | .sig _ l | .reap l | .hFree _ l | .hComp _ _ l | .hPost _ l => l
  | _ => []

/-- Requests reaped and not yet completed. -/
def pEvs : PPc → List Nat
  | .hFree l _ | .hComp l _ _ => l
  | _ => []

/-- Free events acquired and not yet used. -/
def pRes : PPc → Nat
  | .collect l | .getFree l => l.length - 1
  | .collect2 l | .giveBack l | .submit l | .sig _ l | .reap l | .hFree _ l | .hComp _ _ l | .hPost _ l => l.length
  | _ => 0

/-- Events reaped and not yet marked free. -/
def pUns : PPc → Nat
  | .hFree l _ => l.length
  | _ => 0

/-- Events reaped and not yet subtracted from the posted counter. -/
def pAcc : PPc → Nat
  | .hFree l _ => l.length
  | .hComp _ n _ => n
  | .hPost n _ => n
  | _ => 0

/-- Operations submitted and not yet added to the posted counter. -/
def pSig : PPc → Nat
  | .sig k _ => k
  | _ => 0

/-- Token of the waiting counter held. -/
def pEat : PPc → Nat
  | .check _ | .lock | .putBack => 1
  | _ => 0

/-- A batch is never empty while it is collected. -/
def pWf : PPc → Prop
  | .collect l | .collect2 l | .giveBack l | .getFree l => l ≠ []
  | _ => True

def wEvs : WPc → List Nat
  | .comp l | .hFree l | .hComp l _ => l
  | _ => []

def wUns : WPc → Nat
  | .comp l | .hFree l => l.length
  | _ => 0

def wAcc : WPc → Nat
  | .comp l | .hFree l => l.length
  | .hComp _ n => n
  | .hPost n => n
  | _ => 0

def wEat : WPc → Nat
  | .check _ | .reap | .comp _ => 1
  | _ => 0

/-- The kernel confirms no cancellation. -/
def NoConfirm (_ : St) (op : Op) : Prop := ∀ r, op ≠ .cancelK r true

/-! ### Lists -/

theorem count_without (evs : List Nat) : ∀ (l : List Nat) (x : Nat), (without l evs).count x = l.count x - evs.count x := by
  induction evs with
  | nil => intro l x; simp [without]
  | cons e evs ih =>
    intro l x
    have : without l (e :: evs) = without (l.erase e) evs := rfl
    rw [this, ih, List.count_erase, List.count_cons]
    by_cases h : e = x
    · subst h; simp; omega
    · simp [h]

theorem length_without (evs : List Nat) : ∀ (l : List Nat), (∀ x, evs.count x ≤ l.count x) →
    (without l evs).length + evs.length = l.length := by
  induction evs with
  | nil => intro l _; simp [without]
  | cons e evs ih =>
    intro l h
    have e1 : without l (e :: evs) = without (l.erase e) evs := rfl
    have hm : e ∈ l := by
      have := h e
      rw [List.count_cons_self] at this
      exact List.count_pos_iff.1 (by omega)
    have := ih (l.erase e) (by
      intro x
      have hx := h x
      rw [List.count_cons] at hx
      rw [List.count_erase]
      by_cases hex : e = x
      · subst hex; simp at hx ⊢; omega
      · simp [hex] at hx ⊢; omega)
    rw [e1, List.length_cons]
    rw [List.length_erase_of_mem hm] at this
    have : 0 < l.length := List.length_pos_of_mem hm
    omega

theorem reapable_count {s : St} {evs : List Nat} (h : reapable s evs = true) (x : Nat) : evs.count x ≤ s.infl.count x := by
  simp only [reapable, Bool.and_eq_true, List.all_eq_true, decide_eq_true_eq] at h
  by_cases hx : x ∈ evs
  · exact h.2 x hx
  · rw [List.count_eq_zero_of_not_mem hx]; omega

theorem reapable_len {s : St} {evs : List Nat} (h : reapable s evs = true) : (without s.infl evs).length + evs.length = s.infl.length :=
  length_without _ _ (reapable_count h)

theorem complete_ok {s s' : St} {r : Nat} {b : Bool} (h : complete s r b = .ok s') :
    r ∉ s.comp.map (·.1) ∧ s' = { s with comp := s.comp ++ [(r, b)] } := by
  unfold complete at h
  split at h
  · cases h
  · rename_i hn
    injection h with h
    exact ⟨hn, h.symm⟩

theorem complete_of {s : St} {r : Nat} {b : Bool} (h : r ∉ s.comp.map (·.1)) :
    complete s r b = .ok { s with comp := s.comp ++ [(r, b)] } := by
  unfold complete; rw [if_neg h]

theorem afterSig_held (rest : List Nat) : pHeld (afterSig rest) = rest ∧ pEvs (afterSig rest) = [] ∧ pRes (afterSig rest) = rest.length ∧
    pUns (afterSig rest) = 0 ∧ pAcc (afterSig rest) = 0 ∧ pSig (afterSig rest) = 0 ∧ pEat (afterSig rest) = 0 ∧ pWf (afterSig rest) := by
  unfold afterSig
  split
  · rename_i h; subst h; exact ⟨rfl, rfl, rfl, rfl, rfl, rfl, rfl, trivial⟩
  · exact ⟨rfl, rfl, rfl, rfl, rfl, rfl, rfl, trivial⟩

/-! ### Free events and conservation -/

/-- Total number of places at which request `r` is. -/
def places (s : St) (r : Nat) : Nat :=
  s.waiting.count r + (pHeld s.post).count r + s.infl.count r + (pEvs s.post).count r + (wEvs s.wt).count r +
  s.canc.count r + (s.comp.map (·.1)).count r

structure Inv (s : St) : Prop where
  kcan : s.kcan = []
  wf : pWf s.post
  free : s.nf + s.infl.length + pRes s.post + pUns s.post + wUns s.wt = s.maxE
  cons : ∀ r, places s r = s.subm.count r
  nd : s.subm.Nodup
  pos : 0 < s.maxE
  c2 : ∀ l, s.post = .collect2 l → s.waiting ≠ []

theorem inv_init {m : Nat} (h : 0 < m) : Inv (init m) := by
  constructor <;> simp [init, pWf, pRes, pUns, wUns, places, pHeld, pEvs, wEvs, h]

theorem inv_post {s s' : St} {o : Kernel} (h : Inv s) (hs : postStep s o = .ok s') : Inv s' := by
  obtain ⟨hk, hw, hf, hc, hn, hp, h2⟩ := h
  unfold postStep at hs
  split at hs
  all_goals rename_i hpc
  all_goals simp only [hpc, pWf, pRes, pUns] at hw hf
  all_goals simp only [places, hpc, pHeld, pEvs] at hc
  · split at hs
    · cases hs
    injection hs with hs; subst hs
    constructor <;> simp_all [pWf, pRes, pUns, places, pHeld, pEvs]
  · injection hs with hs; subst hs
    split <;> (constructor <;> simp_all [pWf, pRes, pUns, places, pHeld, pEvs])
  · split at hs
    · cases hs
    split at hs
    · injection hs with hs; subst hs
      constructor <;> simp_all [pWf, pRes, pUns, places, pHeld, pEvs]
    · rename_i r q hq
      injection hs with hs; subst hs
      constructor <;> simp_all [pWf, pRes, pUns, places, pHeld, pEvs]
      intro x
      have := hc x
      simp only [List.count_cons, List.count_nil] at this ⊢
      omega
  · injection hs with hs; subst hs
    constructor <;> simp_all [pWf, pRes, pUns, places, pHeld, pEvs]
  · rename_i reqs
    split at hs
    · injection hs with hs; subst hs
      constructor <;> simp_all [pWf, pRes, pUns, places, pHeld, pEvs]
    · rename_i hne
      injection hs with hs; subst hs
      have : 0 < reqs.length := List.length_pos_iff.2 hw
      constructor <;> simp_all [pWf, pRes, pUns, places, pHeld, pEvs]
      omega
  · rename_i reqs
    split at hs
    · injection hs with hs; subst hs
      constructor <;> simp_all [pWf, pRes, pUns, places, pHeld, pEvs]
    · split at hs
      · cases hs
      · rename_i r q hq
        injection hs with hs; subst hs
        constructor <;> simp_all [pWf, pRes, pUns, places, pHeld, pEvs]
        intro x
        have := hc x
        simp only [List.count_cons, List.count_nil] at this ⊢
        omega
  · rename_i reqs
    injection hs with hs; subst hs
    have : 0 < reqs.length := List.length_pos_iff.2 hw
    constructor <;> simp_all [pWf, pRes, pUns, places, pHeld, pEvs]
    omega
  · rename_i reqs
    split at hs
    · cases hs
    injection hs with hs; subst hs
    have : 0 < reqs.length := List.length_pos_iff.2 hw
    constructor <;> simp_all [pWf, pRes, pUns, places, pHeld, pEvs]
    omega
  · rename_i cbs
    split at hs
    · cases hs
    split at hs
    · injection hs with hs; subst hs
      constructor <;> simp_all [pWf, pRes, pUns, places, pHeld, pEvs]
    split at hs
    · rename_i hle
      injection hs with hs; subst hs
      have key : ∀ x, (cbs.take o.k).count x + (cbs.drop o.k).count x = cbs.count x := by
        intro x; rw [← List.count_append, List.take_append_drop]
      constructor <;> simp_all [pWf, pRes, pUns, places, pHeld, pEvs]
      · omega
      · intro x; have := hc x; have := key x; omega
    · cases hs
  · rename_i k rest
    injection hs with hs; subst hs
    obtain ⟨a1, a2, a3, a4, a5, a6, a7, a8⟩ := afterSig_held rest
    refine ⟨hk, a8, ?_, ?_, hn, hp, ?_⟩
    · simp only [a3, a4]; exact hf
    · intro x; simp only [places, a1, a2]; exact hc x
    · intro l hl; unfold afterSig at hl; simp only at hl; split at hl <;> cases hl
  · rename_i cbs
    split at hs
    · cases hs
    split at hs
    · rename_i hr
      split at hs
      · injection hs with hs; subst hs
        constructor <;> simp_all [pWf, pRes, pUns, places, pHeld, pEvs]
      · injection hs with hs; subst hs
        have e1 := reapable_len hr
        have e2 := reapable_count hr
        constructor <;> simp_all [pWf, pRes, pUns, places, pHeld, pEvs]
        · omega
        · intro x
          have := hc x
          have := e2 x
          rw [count_without]
          omega
    · cases hs
  · injection hs with hs; subst hs
    constructor <;> simp_all [pWf, pRes, pUns, places, pHeld, pEvs]
    omega
  · injection hs with hs; subst hs
    constructor <;> simp_all [pWf, pRes, pUns, places, pHeld, pEvs]
  · rename_i r evs n cbs
    split at hs
    · rename_i s1 hco
      obtain ⟨_, rfl⟩ := complete_ok hco
      injection hs with hs; subst hs
      refine ⟨hk, trivial, ?_, ?_, hn, hp, ?_⟩
      · simp only [pRes, pUns]; exact hf
      · intro x
        have := hc x
        simp only [places, pHeld, pEvs, List.map_append, List.map_cons, List.map_nil, List.count_append, List.count_cons, List.count_nil] at this ⊢
        omega
      · intro l hl; simp at hl
    · rename_i hne
      exact absurd hs (hne _)
  · split at hs
    · cases hs
    injection hs with hs; subst hs
    constructor <;> simp_all [pWf, pRes, pUns, places, pHeld, pEvs]
  · injection hs with hs; subst hs
    constructor <;> simp_all [pWf, pRes, pUns, places, pHeld, pEvs]
  · cases hs

theorem inv_wait {s s' : St} {o : Kernel} (h : Inv s) (hs : waitStep s o = .ok s') : Inv s' := by
  obtain ⟨hk, hw, hf, hc, hn, hp, h2⟩ := h
  unfold waitStep at hs
  split at hs
  all_goals rename_i hpc
  all_goals simp only [hpc, wUns] at hf
  all_goals simp only [places, hpc, wEvs] at hc
  · split at hs
    · cases hs
    injection hs with hs; subst hs
    exact ⟨hk, hw, hf, hc, hn, hp, h2⟩
  · injection hs with hs; subst hs
    split <;> exact ⟨hk, hw, hf, hc, hn, hp, h2⟩
  · split at hs
    · cases hs
    split at hs
    · rename_i hr
      simp only [Bool.and_eq_true] at hr
      injection hs with hs; subst hs
      have e1 := reapable_len hr.1
      have e2 := reapable_count hr.1
      refine ⟨hk, hw, ?_, ?_, hn, hp, h2⟩
      · simp only [wUns]; omega
      · intro x
        have := hc x
        have := e2 x
        simp only [places, wEvs, count_without]
        simp only [List.count_nil] at *
        omega
    · cases hs
  · injection hs with hs; subst hs
    exact ⟨hk, hw, hf, hc, hn, hp, h2⟩
  · injection hs with hs; subst hs
    refine ⟨hk, hw, ?_, hc, hn, hp, h2⟩
    simp only [wUns]; omega
  · injection hs with hs; subst hs
    exact ⟨hk, hw, hf, hc, hn, hp, h2⟩
  · rename_i r evs n
    split at hs
    · rename_i s1 hco
      obtain ⟨_, rfl⟩ := complete_ok hco
      injection hs with hs; subst hs
      refine ⟨hk, hw, hf, ?_, hn, hp, h2⟩
      intro x
      have := hc x
      simp only [places, wEvs, List.map_append, List.map_cons, List.map_nil, List.count_append, List.count_cons, List.count_nil] at this ⊢
      omega
    · rename_i hne
      exact absurd hs (hne _)
  · split at hs
    · cases hs
    injection hs with hs; subst hs
    exact ⟨hk, hw, hf, hc, hn, hp, h2⟩
  · injection hs with hs; subst hs
    exact ⟨hk, hw, hf, hc, hn, hp, h2⟩
  · cases hs

theorem inv_step {s s' : St} {op : Op} (h : Inv s) (hp : NoConfirm s op) (hs : step s op = .ok s') : Inv s' := by
  cases op with
  | post o => exact inv_post h hs
  | wait o => exact inv_wait h hs
  | add r =>
    simp only [step] at hs
    split at hs
    · cases hs
    split at hs
    · cases hs
    rename_i hcond
    simp only [Bool.or_eq_true, decide_eq_true_eq, not_or] at hcond
    injection hs with hs; subst hs
    obtain ⟨hk, hw, hf, hc, hn, hpos, h2⟩ := h
    refine ⟨hk, hw, hf, ?_, ?_, hpos, ?_⟩
    · intro x
      have := hc x
      simp only [places, List.count_append, List.count_cons, List.count_nil] at this ⊢
      omega
    · rw [List.nodup_append]
      refine ⟨hn, by simp, ?_⟩
      intro a ha b hb
      simp at hb
      subst hb
      intro e; subst e
      exact hcond.2 ha
    · intro l hl; simp
  | addSig =>
    simp only [step] at hs
    split at hs
    · cases hs
    injection hs with hs; subst hs
    obtain ⟨hk, hw, hf, hc, hn, hpos, h2⟩ := h
    exact ⟨hk, hw, hf, hc, hn, hpos, h2⟩
  | cancelW r =>
    simp only [step] at hs
    split at hs
    · cases hs
    split at hs
    · cases hs
    rename_i hcond
    simp only [Bool.or_eq_true, Bool.not_eq_true', decide_eq_false_iff_not, not_or, Decidable.not_not] at hcond
    injection hs with hs; subst hs
    obtain ⟨hk, hw, hf, hc, hn, hpos, h2⟩ := h
    refine ⟨hk, hw, hf, ?_, hn, hpos, ?_⟩
    · intro x
      have := hc x
      have hm := List.count_pos_iff.2 hcond.2
      simp only [places, List.count_append, List.count_cons, List.count_nil, List.count_erase] at this ⊢
      by_cases e : r = x
      · subst e; simp; omega
      · simp [e]; omega
    · intro l hl
      have hl : s.post = .collect2 l := hl
      have := hcond.1
      simp [locked, hl] at this
  | cancelComp r =>
    simp only [step] at hs
    split at hs
    · rename_i hm
      split at hs
      · rename_i s1 hco
        obtain ⟨_, rfl⟩ := complete_ok hco
        injection hs with hs; subst hs
        obtain ⟨hk, hw, hf, hc, hn, hpos, h2⟩ := h
        refine ⟨hk, hw, hf, ?_, hn, hpos, h2⟩
        intro x
        have := hc x
        have hm := List.count_pos_iff.2 hm
        simp only [places, List.map_append, List.map_cons, List.map_nil, List.count_append, List.count_cons, List.count_nil, List.count_erase] at this ⊢
        by_cases e : r = x
        · subst e; simp; omega
        · simp [e]; omega
      · rename_i hne
        exact absurd hs (hne _)
    · cases hs
  | cancelDone =>
    simp only [step] at hs
    split at hs
    · cases hs
    injection hs with hs; subst hs
    obtain ⟨hk, hw, hf, hc, hn, hpos, h2⟩ := h
    exact ⟨hk, hw, hf, hc, hn, hpos, h2⟩
  | cancelK r ok =>
    simp only [step] at hs
    split at hs
    · cases hs
    split at hs
    · cases hs
    split at hs
    · rename_i hok; subst hok; exact absurd rfl (hp r)
    · injection hs with hs; subst hs; exact h
  | kstep i =>
    simp [step, kStep, h.kcan] at hs
  | stop =>
    obtain ⟨hk, hw, hf, hc, hn, hpos, h2⟩ := h
    simp only [step, stopStep] at hs
    split at hs
    · injection hs with hs; subst hs; exact ⟨hk, hw, hf, hc, hn, hpos, h2⟩
    · injection hs with hs; subst hs; exact ⟨hk, hw, hf, hc, hn, hpos, h2⟩
    · split at hs
      · injection hs with hs; subst hs; exact ⟨hk, hw, hf, hc, hn, hpos, h2⟩
      · cases hs
    · injection hs with hs; subst hs; exact ⟨hk, hw, hf, hc, hn, hpos, h2⟩
    · split at hs
      · injection hs with hs; subst hs; exact ⟨hk, hw, hf, hc, hn, hpos, h2⟩
      · cases hs
    · cases hs

theorem reach_inv {P : St → Op → Prop} (hP : ∀ s op, P s op → NoConfirm s op) {s : St} (h : Reach P s) : Inv s := by
  induction h with
  | start m hm => exact inv_init hm
  | next op _ hp hs ih => exact inv_step ih (hP _ _ hp) hs

/-! ### Tokens -/

def pOut : PPc → Bool
  | .exit | .dead => true
  | _ => false

def wOut : WPc → Bool
  | .exit | .dead => true
  | _ => false

/-- Termination token in the waiting counter. -/
def tokP (s : St) : Nat := if s.dtor = .sigP ∧ pOut s.post = false then 1 else 0
/-- Termination token in the posted counter. -/
def tokW (s : St) : Nat := if s.dtor = .sigW ∧ wOut s.wt = false then 1 else 0

/-- No call is under way when the destructor starts, and no thread reads its counter between the
two statements of `stop_thread` or has read it and not yet tested the state when `stop_thread`
begins. -/
def Calm (s : St) : Op → Prop
  | .stop => (s.dtor = .idle → s.nsig = 0 ∧ s.canc = [] ∧ s.ncw = 0 ∧ ∀ n, s.post ≠ .check n) ∧
             (s.dtor = .sigP → ∀ n, s.wt ≠ .check n)
  | .post _ => s.dtor = .setP → s.post ≠ .wait
  | .wait _ => s.dtor = .setW → s.wt ≠ .wait
  | _ => True

structure Tok (s : St) : Prop where
  w : s.nw + s.nsig + pEat s.post = s.waiting.length + s.canc.length + s.ncw + tokP s
  p : s.np + pSig s.post + wEat s.wt = s.infl.length + pAcc s.post + wAcc s.wt + tokW s
  quiet : s.dtor ≠ .idle → s.nsig = 0 ∧ s.canc = [] ∧ s.ncw = 0
  pchk : ∀ n, s.post = .check n → s.dtor ≠ .idle → s.dtor = .sigP ∧ n = s.nw
  pend : pOut s.post = true → s.waiting = [] ∧ s.dtor ≠ .idle ∧ s.dtor ≠ .setP
  pdead : wTerm s = true → s.post = .dead
  wchk : ∀ n, s.wt = .check n → wTerm s = true → s.dtor = .sigW ∧ n = s.np
  wend : wOut s.wt = true → s.infl = [] ∧ (s.dtor = .sigW ∨ s.dtor = .done)
  wdead : s.dtor = .done → s.wt = .dead

theorem tok_init (m : Nat) : Tok (init m) := by
  constructor <;> simp [init, pEat, pSig, wEat, pAcc, wAcc, tokP, tokW, pOut, wOut, wTerm]

theorem wTerm_of {s : St} (h : s.post ≠ .dead) (ht : Tok s) : wTerm s = false := by
  cases hw : wTerm s
  · rfl
  · exact absurd (ht.pdead hw) h

theorem tok_post {s s' : St} {o : Kernel} (h : Tok s) (hi : Inv s) (hp : Calm s (.post o)) (hs : postStep s o = .ok s') : Tok s' := by
  have hnd : s.post ≠ .dead := by intro e; simp [postStep, e] at hs
  have hwt := wTerm_of hnd h
  obtain ⟨hw, hpp, hq, hpc, hpe, hpd, hwc, hwe, hwd⟩ := h
  have hwt' : s.dtor ≠ .setW ∧ s.dtor ≠ .sigW ∧ s.dtor ≠ .done := by
    simp only [wTerm, Bool.or_eq_false_iff] at hwt
    simpa [beq_iff_eq, and_assoc] using hwt
  have htw : tokW s = 0 := by simp [tokW, hwt'.2.1]
  have hwo : wOut s.wt = false := by
    cases hx : wOut s.wt
    · rfl
    · rcases (hwe hx).2 with e | e
      · exact absurd e hwt'.2.1
      · exact absurd e hwt'.2.2
  unfold postStep at hs
  split at hs
  all_goals rename_i hpos
  all_goals simp only [hpos, pEat, pSig, pAcc, tokP, pOut] at hw hpp
  all_goals simp only [htw] at hpp
  · split at hs
    · cases hs
    rename_i hnw
    injection hs with hs; subst hs
    refine ⟨?_, ?_, hq, ?_, by simp [pOut], by simp only [wTerm] at hwt ⊢; simp [hwt], by simp only [wTerm] at hwt ⊢; simp [hwt], by simp [hwo], hwd⟩
    · simp only [pEat, tokP, pOut]; omega
    · simp only [pSig, pAcc, tokW, hwt'.2.1]; simpa using hpp
    · intro n hn hd
      simp only at hn hd ⊢
      injection hn with hn
      refine ⟨?_, hn.symm⟩
      have := hp
      cases hdt : s.dtor <;> simp_all [Calm]
  · rename_i n
    injection hs with hs; subst hs
    split
    · rename_i hc
      obtain ⟨hd, hn⟩ := hpc n hpos hc.1
      have hqq := hq hc.1
      have hwl : s.waiting = [] := by
        rw [hqq.1, hqq.2.1, hqq.2.2] at hw
        simp [hd] at hw
        have : s.waiting.length = 0 := by omega
        exact List.length_eq_zero_iff.1 this
      refine ⟨?_, ?_, hq, by simp, ?_, by simp only [wTerm] at hwt ⊢; simp [hwt], by simp only [wTerm] at hwt ⊢; simp [hwt], by simp [hwo], hwd⟩
      · simp only [pEat, tokP, pOut]; simp [hd] at hw ⊢; omega
      · simp only [pSig, pAcc, tokW, hwt'.2.1]; simpa using hpp
      · intro _; exact ⟨hwl, by simp [hd], by simp [hd]⟩
    · refine ⟨?_, ?_, hq, by simp, by simp [pOut], by simp only [wTerm] at hwt ⊢; simp [hwt], by simp only [wTerm] at hwt ⊢; simp [hwt], by simp [hwo], hwd⟩
      · simp only [pEat, tokP, pOut]; omega
      · simp only [pSig, pAcc, tokW, hwt'.2.1]; simpa using hpp
  · split at hs
    · cases hs
    split at hs
    · injection hs with hs; subst hs
      refine ⟨?_, ?_, hq, by simp, by simp [pOut], by simp only [wTerm] at hwt ⊢; simp [hwt], by simp only [wTerm] at hwt ⊢; simp [hwt], by simp [hwo], hwd⟩
      · simp only [pEat, tokP, pOut]; omega
      · simp only [pSig, pAcc, tokW, hwt'.2.1]; simpa using hpp
    · rename_i r q hq'
      injection hs with hs; subst hs
      refine ⟨?_, ?_, hq, by simp, by simp [pOut], by simp only [wTerm] at hwt ⊢; simp [hwt], by simp only [wTerm] at hwt ⊢; simp [hwt], by simp [hwo], hwd⟩
      · simp only [pEat, tokP, pOut]; rw [hq', List.length_cons] at hw; omega
      · simp only [pSig, pAcc, tokW, hwt'.2.1]; simpa using hpp
  · injection hs with hs; subst hs
    refine ⟨?_, ?_, hq, by simp, by simp [pOut], by simp only [wTerm] at hwt ⊢; simp [hwt], by simp only [wTerm] at hwt ⊢; simp [hwt], by simp [hwo], hwd⟩
    · simp only [pEat, tokP, pOut]; omega
    · simp only [pSig, pAcc, tokW, hwt'.2.1]; simpa using hpp
  · split at hs
    all_goals
      injection hs with hs; subst hs
      refine ⟨?_, ?_, hq, by simp, by simp [pOut], by simp only [wTerm] at hwt ⊢; simp [hwt], by simp only [wTerm] at hwt ⊢; simp [hwt], by simp [hwo], hwd⟩
      · simp only [pEat, tokP, pOut]; omega
      · simp only [pSig, pAcc, tokW, hwt'.2.1]; simpa using hpp
  · split at hs
    · injection hs with hs; subst hs
      refine ⟨?_, ?_, hq, by simp, by simp [pOut], by simp only [wTerm] at hwt ⊢; simp [hwt], by simp only [wTerm] at hwt ⊢; simp [hwt], by simp [hwo], hwd⟩
      · simp only [pEat, tokP, pOut]; omega
      · simp only [pSig, pAcc, tokW, hwt'.2.1]; simpa using hpp
    · split at hs
      · cases hs
      rename_i hnw _ r q hq'
      injection hs with hs; subst hs
      refine ⟨?_, ?_, hq, by simp, by simp [pOut], by simp only [wTerm] at hwt ⊢; simp [hwt], by simp only [wTerm] at hwt ⊢; simp [hwt], by simp [hwo], hwd⟩
      · simp only [pEat, tokP, pOut]; rw [hq', List.length_cons] at hw; omega
      · simp only [pSig, pAcc, tokW, hwt'.2.1]; simpa using hpp
  · injection hs with hs; subst hs
    refine ⟨?_, ?_, hq, by simp, by simp [pOut], by simp only [wTerm] at hwt ⊢; simp [hwt], by simp only [wTerm] at hwt ⊢; simp [hwt], by simp [hwo], hwd⟩
    · simp only [pEat, tokP, pOut]; omega
    · simp only [pSig, pAcc, tokW, hwt'.2.1]; simpa using hpp
  · split at hs
    · cases hs
    injection hs with hs; subst hs
    refine ⟨?_, ?_, hq, by simp, by simp [pOut], by simp only [wTerm] at hwt ⊢; simp [hwt], by simp only [wTerm] at hwt ⊢; simp [hwt], by simp [hwo], hwd⟩
    · simp only [pEat, tokP, pOut]; omega
    · simp only [pSig, pAcc, tokW, hwt'.2.1]; simpa using hpp
  · split at hs
    · cases hs
    split at hs
    · injection hs with hs; subst hs
      refine ⟨?_, ?_, hq, by simp, by simp [pOut], by simp only [wTerm] at hwt ⊢; simp [hwt], by simp only [wTerm] at hwt ⊢; simp [hwt], by simp [hwo], hwd⟩
      · simp only [pEat, tokP, pOut]; omega
      · simp only [pSig, pAcc, tokW, hwt'.2.1]; simpa using hpp
    split at hs
    · rename_i hle
      injection hs with hs; subst hs
      refine ⟨?_, ?_, hq, by simp, by simp [pOut], by simp only [wTerm] at hwt ⊢; simp [hwt], by simp only [wTerm] at hwt ⊢; simp [hwt], by simp [hwo], hwd⟩
      · simp only [pEat, tokP, pOut]; omega
      · simp only [pSig, pAcc, tokW, hwt'.2.1, List.length_append, List.length_take]
        simp; omega
    · cases hs
  · rename_i k rest
    injection hs with hs; subst hs
    obtain ⟨a1, a2, a3, a4, a5, a6, a7, a8⟩ := afterSig_held rest
    have a9 : pOut (afterSig rest) = false := by unfold afterSig; split <;> rfl
    have a10 : ∀ n, afterSig rest ≠ .check n := by intro n; unfold afterSig; split <;> simp
    refine ⟨?_, ?_, hq, ?_, by simp [a9], by simp only [wTerm] at hwt ⊢; simp [hwt], by simp only [wTerm] at hwt ⊢; simp [hwt], by simp [hwo], hwd⟩
    · simp only [a7, tokP, a9]; omega
    · simp only [a5, a6, tokW, hwt'.2.1]; simp; omega
    · intro n hn; exact absurd hn (a10 n)
  · split at hs
    · cases hs
    split at hs
    · rename_i hr
      split at hs
      · injection hs with hs; subst hs
        refine ⟨?_, ?_, hq, by simp, by simp [pOut], by simp only [wTerm] at hwt ⊢; simp [hwt], by simp only [wTerm] at hwt ⊢; simp [hwt], by simp [hwo], hwd⟩
        · simp only [pEat, tokP, pOut]; omega
        · simp only [pSig, pAcc, tokW, hwt'.2.1]; simpa using hpp
      · have e1 := reapable_len hr
        injection hs with hs; subst hs
        refine ⟨?_, ?_, hq, by simp, by simp [pOut], by simp only [wTerm] at hwt ⊢; simp [hwt], by simp only [wTerm] at hwt ⊢; simp [hwt], by simp [hwo], hwd⟩
        · simp only [pEat, tokP, pOut]; omega
        · simp only [pSig, pAcc, tokW, hwt'.2.1]; simp; omega
    · cases hs
  · injection hs with hs; subst hs
    refine ⟨?_, ?_, hq, by simp, by simp [pOut], by simp only [wTerm] at hwt ⊢; simp [hwt], by simp only [wTerm] at hwt ⊢; simp [hwt], by simp [hwo], hwd⟩
    · simp only [pEat, tokP, pOut]; omega
    · simp only [pSig, pAcc, tokW, hwt'.2.1]; simpa using hpp
  · injection hs with hs; subst hs
    refine ⟨?_, ?_, hq, by simp, by simp [pOut], by simp only [wTerm] at hwt ⊢; simp [hwt], by simp only [wTerm] at hwt ⊢; simp [hwt], by simp [hwo], hwd⟩
    · simp only [pEat, tokP, pOut]; omega
    · simp only [pSig, pAcc, tokW, hwt'.2.1]; simpa using hpp
  · split at hs
    · rename_i s1 hco
      obtain ⟨_, rfl⟩ := complete_ok hco
      injection hs with hs; subst hs
      refine ⟨?_, ?_, hq, by simp, by simp [pOut], by simp only [wTerm] at hwt ⊢; simp [hwt], by simp only [wTerm] at hwt ⊢; simp [hwt], by simp [hwo], hwd⟩
      · simp only [pEat, tokP, pOut]; omega
      · simp only [pSig, pAcc, tokW, hwt'.2.1]; simpa using hpp
    · rename_i hne
      exact absurd hs (hne _)
  · split at hs
    · cases hs
    injection hs with hs; subst hs
    refine ⟨?_, ?_, hq, by simp, by simp [pOut], by simp only [wTerm] at hwt ⊢; simp [hwt], by simp only [wTerm] at hwt ⊢; simp [hwt], by simp [hwo], hwd⟩
    · simp only [pEat, tokP, pOut]; omega
    · simp only [pSig, pAcc, tokW, hwt'.2.1]; simp; omega
  · injection hs with hs; subst hs
    have := hpe (by rw [hpos]; rfl)
    refine ⟨?_, ?_, hq, by simp, fun _ => this, by simp, by simp only [wTerm] at hwt ⊢; simp [hwt], by simp [hwo], hwd⟩
    · simp only [pEat, tokP, pOut]; simp at hw ⊢; omega
    · simp only [pSig, pAcc, tokW, hwt'.2.1]; simpa using hpp
  · cases hs

theorem tok_wait {s s' : St} {o : Kernel} (h : Tok s) (hp : Calm s (.wait o)) (hs : waitStep s o = .ok s') : Tok s' := by
  obtain ⟨hw, hpp, hq, hpc, hpe, hpd, hwc, hwe, hwd⟩ := h
  have hnd : s.dtor ≠ .done := by
    intro e
    have := hwd e
    simp [waitStep, this] at hs
  unfold waitStep at hs
  split at hs
  all_goals rename_i hpos
  all_goals simp only [hpos, wEat, wAcc, tokW, wOut] at hpp
  · split at hs
    · cases hs
    rename_i hnp
    injection hs with hs; subst hs
    refine ⟨hw, ?_, hq, hpc, hpe, hpd, ?_, by simp [wOut], by simp [hnd]⟩
    · simp only [wEat, wAcc, tokW, wOut]; omega
    · intro n hn ht
      simp only at hn
      injection hn with hn
      refine ⟨?_, hn.symm⟩
      have hp := hp
      simp only [Calm] at hp
      simp only [wTerm, Bool.or_eq_true, beq_iff_eq] at ht
      rcases ht with (ht | ht) | ht
      · exact absurd hpos (hp ht)
      · exact ht
      · exact absurd ht hnd
  · rename_i n
    injection hs with hs; subst hs
    split
    · rename_i hc
      obtain ⟨hd, hn⟩ := hwc n hpos hc.1
      have hdead := hpd hc.1
      have hinf : s.infl = [] := by
        rw [hdead] at hpp
        simp [hd, pSig, pAcc] at hpp
        have : s.infl.length = 0 := by omega
        exact List.length_eq_zero_iff.1 this
      refine ⟨hw, ?_, hq, hpc, hpe, hpd, by simp, ?_, by simp [hnd]⟩
      · simp only [wEat, wAcc, tokW, wOut]; simp [hd] at hpp ⊢; omega
      · intro _; exact ⟨hinf, .inl hd⟩
    · refine ⟨hw, ?_, hq, hpc, hpe, hpd, by simp, by simp [wOut], by simp [hnd]⟩
      simp only [wEat, wAcc, tokW, wOut]; omega
  · split at hs
    · cases hs
    split at hs
    · rename_i hr
      simp only [Bool.and_eq_true] at hr
      have e1 := reapable_len hr.1
      injection hs with hs; subst hs
      refine ⟨hw, ?_, hq, hpc, hpe, hpd, by simp, by simp [wOut], by simp [hnd]⟩
      simp only [wEat, wAcc, tokW, wOut]; omega
    · cases hs
  · injection hs with hs; subst hs
    refine ⟨hw, ?_, hq, hpc, hpe, hpd, by simp, by simp [wOut], by simp [hnd]⟩
    simp only [wEat, wAcc, tokW, wOut]; omega
  · injection hs with hs; subst hs
    refine ⟨hw, ?_, hq, hpc, hpe, hpd, by simp, by simp [wOut], by simp [hnd]⟩
    simp only [wEat, wAcc, tokW, wOut]; omega
  · injection hs with hs; subst hs
    refine ⟨hw, ?_, hq, hpc, hpe, hpd, by simp, by simp [wOut], by simp [hnd]⟩
    simp only [wEat, wAcc, tokW, wOut]; omega
  · split at hs
    · rename_i s1 hco
      obtain ⟨_, rfl⟩ := complete_ok hco
      injection hs with hs; subst hs
      refine ⟨hw, ?_, hq, hpc, hpe, hpd, by simp, by simp [wOut], by simp [hnd]⟩
      simp only [wEat, wAcc, tokW, wOut]; omega
    · rename_i hne
      exact absurd hs (hne _)
  · split at hs
    · cases hs
    injection hs with hs; subst hs
    refine ⟨hw, ?_, hq, hpc, hpe, hpd, by simp, by simp [wOut], by simp [hnd]⟩
    simp only [wEat, wAcc, tokW, wOut]; omega
  · injection hs with hs; subst hs
    have := hwe (by rw [hpos]; rfl)
    refine ⟨hw, ?_, hq, hpc, hpe, hpd, by simp, fun _ => this, by simp [hnd]⟩
    simp only [wEat, wAcc, tokW, wOut]; simp at hpp ⊢; omega
  · cases hs

theorem tok_stop {s s' : St} (h : Tok s) (hp : Calm s .stop) (hs : stopStep s = .ok s') : Tok s' := by
  obtain ⟨hw, hpp, hq, hpc, hpe, hpd, hwc, hwe, hwd⟩ := h
  obtain ⟨c1, c2⟩ := hp
  unfold stopStep at hs
  split at hs
  all_goals rename_i hd
  all_goals simp only [tokP, tokW, hd] at hw hpp
  · injection hs with hs; subst hs
    obtain ⟨q1, q2, q3, q4⟩ := c1 hd
    refine ⟨?_, ?_, fun _ => ⟨q1, q2, q3⟩, ?_, ?_, by simp [wTerm], by simp [wTerm], ?_, by simp⟩
    · simp only [tokP]; simpa using hw
    · simp only [tokW]; simpa using hpp
    · intro n hn; exact absurd hn (q4 n)
    · intro ho; have := hpe ho; rw [hd] at this; simp at this
    · intro ho; have := hwe ho; rw [hd] at this; simp at this
  · injection hs with hs; subst hs
    have hpo : pOut s.post = false := by
      cases hx : pOut s.post
      · rfl
      · have := hpe hx; rw [hd] at this; simp at this
    refine ⟨?_, ?_, fun _ => hq (by simp [hd]), ?_, ?_, by simp [wTerm], by simp [wTerm], ?_, by simp⟩
    · simp only [tokP, hpo]; simp at hw ⊢; omega
    · simp only [tokW]; simpa using hpp
    · intro n hn _
      have := (hpc n hn (by simp [hd])).1
      rw [hd] at this; cases this
    · intro ho; simp only at ho; rw [hpo] at ho; cases ho
    · intro ho; have := hwe ho; rw [hd] at this; simp at this
  · split at hs
    · rename_i hdead
      injection hs with hs; subst hs
      refine ⟨?_, ?_, fun _ => hq (by simp [hd]), ?_, ?_, fun _ => hdead, ?_, ?_, by simp⟩
      · simp only [tokP]; simp [hdead, pOut] at hw ⊢; omega
      · simp only [tokW]; simpa using hpp
      · intro n hn; simp only at hn; rw [hdead] at hn; cases hn
      · intro ho; have := hpe ho; exact ⟨this.1, by simp, by simp⟩
      · intro n hn; exact absurd hn (c2 hd n)
      · intro ho; have := hwe ho; rw [hd] at this; simp at this
    · cases hs
  · injection hs with hs; subst hs
    have hdead := hpd (by simp [wTerm, hd])
    have hwo : wOut s.wt = false := by
      cases hx : wOut s.wt
      · rfl
      · have := hwe hx; rw [hd] at this; simp at this
    refine ⟨?_, ?_, fun _ => hq (by simp [hd]), ?_, ?_, fun _ => hdead, ?_, ?_, by simp⟩
    · simp only [tokP]; simpa using hw
    · simp only [tokW, hwo]; simp at hpp ⊢; omega
    · intro n hn; simp only at hn; rw [hdead] at hn; cases hn
    · intro ho; have := hpe ho; exact ⟨this.1, by simp, by simp⟩
    · intro n hn _
      have := (hwc n hn (by simp [wTerm, hd])).1
      rw [hd] at this; cases this
    · intro ho; simp only at ho; rw [hwo] at ho; cases ho
  · split at hs
    · rename_i hdead
      injection hs with hs; subst hs
      have hpdead := hpd (by simp [wTerm, hd])
      refine ⟨?_, ?_, fun _ => hq (by simp [hd]), ?_, ?_, fun _ => hpdead, ?_, ?_, fun _ => hdead⟩
      · simp only [tokP]; simpa using hw
      · simp only [tokW]; simp [hdead, wOut] at hpp ⊢; omega
      · intro n hn; simp only at hn; rw [hpdead] at hn; cases hn
      · intro ho; have := hpe ho; exact ⟨this.1, by simp, by simp⟩
      · intro n hn; simp only at hn; rw [hdead] at hn; cases hn
      · intro ho; exact ⟨(hwe ho).1, .inr rfl⟩
    · cases hs
  · cases hs

theorem tok_step {s s' : St} {op : Op} (h : Tok s) (hi : Inv s) (hn : NoConfirm s op) (hp : Calm s op) (hs : step s op = .ok s') : Tok s' := by
  cases op with
  | post o => exact tok_post h hi hp hs
  | wait o => exact tok_wait h hp hs
  | stop => exact tok_stop h hp hs
  | add r =>
    simp only [step] at hs
    split at hs
    · cases hs
    rename_i hd
    simp only [ne_eq, Decidable.not_not] at hd
    split at hs
    · cases hs
    injection hs with hs; subst hs
    obtain ⟨hw, hpp, hq, hpc, hpe, hpd, hwc, hwe, hwd⟩ := h
    refine ⟨?_, hpp, ?_, hpc, ?_, hpd, hwc, hwe, hwd⟩
    · simp only [tokP, List.length_append, List.length_cons, List.length_nil] at hw ⊢; omega
    · intro hx; exact absurd hd hx
    · intro ho; exact absurd hd (hpe ho).2.1
  | addSig =>
    simp only [step] at hs
    split at hs
    · cases hs
    rename_i hns
    injection hs with hs; subst hs
    obtain ⟨hw, hpp, hq, hpc, hpe, hpd, hwc, hwe, hwd⟩ := h
    have hd : s.dtor = .idle := by
      false_or_by_contra
      rename_i hx
      exact hns (hq hx).1
    refine ⟨?_, hpp, ?_, ?_, hpe, hpd, hwc, hwe, hwd⟩
    · simp only [tokP] at hw ⊢; omega
    · intro hx; exact absurd hd hx
    · intro n _ hx; exact absurd hd hx
  | cancelW r =>
    simp only [step] at hs
    split at hs
    · cases hs
    rename_i hd
    simp only [ne_eq, Decidable.not_not] at hd
    split at hs
    · cases hs
    rename_i hcond
    simp only [Bool.or_eq_true, Bool.not_eq_true', decide_eq_false_iff_not, not_or, Decidable.not_not] at hcond
    injection hs with hs; subst hs
    obtain ⟨hw, hpp, hq, hpc, hpe, hpd, hwc, hwe, hwd⟩ := h
    have hl := List.length_erase_of_mem hcond.2
    have hl2 := List.length_pos_of_mem hcond.2
    refine ⟨?_, hpp, ?_, hpc, ?_, hpd, hwc, hwe, hwd⟩
    · simp only [tokP, List.length_append, List.length_cons, List.length_nil] at hw ⊢; omega
    · intro hx; exact absurd hd hx
    · intro ho; exact absurd hd (hpe ho).2.1
  | cancelComp r =>
    simp only [step] at hs
    split at hs
    · rename_i hm
      split at hs
      · rename_i s1 hco
        obtain ⟨_, rfl⟩ := complete_ok hco
        injection hs with hs; subst hs
        obtain ⟨hw, hpp, hq, hpc, hpe, hpd, hwc, hwe, hwd⟩ := h
        have hd : s.dtor = .idle := by
          false_or_by_contra
          rename_i hx
          rw [(hq hx).2.1] at hm
          simp at hm
        have hl := List.length_erase_of_mem hm
        have hl2 := List.length_pos_of_mem hm
        refine ⟨?_, hpp, ?_, hpc, hpe, hpd, hwc, hwe, hwd⟩
        · simp only [tokP] at hw ⊢; omega
        · intro hx; exact absurd hd hx
      · rename_i hne
        exact absurd hs (hne _)
    · cases hs
  | cancelDone =>
    simp only [step] at hs
    split at hs
    · cases hs
    rename_i hns
    simp only [not_or] at hns
    injection hs with hs; subst hs
    obtain ⟨hw, hpp, hq, hpc, hpe, hpd, hwc, hwe, hwd⟩ := h
    have hd : s.dtor = .idle := by
      false_or_by_contra
      rename_i hx
      exact hns.1 (hq hx).2.2
    refine ⟨?_, hpp, ?_, ?_, hpe, hpd, hwc, hwe, hwd⟩
    · simp only [tokP] at hw ⊢; omega
    · intro hx; exact absurd hd hx
    · intro n _ hx; exact absurd hd hx
  | cancelK r ok =>
    simp only [step] at hs
    split at hs
    · cases hs
    split at hs
    · cases hs
    split at hs
    · rename_i hok; subst hok; exact absurd rfl (hn r)
    · injection hs with hs; subst hs; exact h
  | kstep i =>
    simp [step, kStep, hi.kcan] at hs

theorem reach_tok {P : St → Op → Prop} (hP : ∀ s op, P s op → NoConfirm s op ∧ Calm s op) {s : St} (h : Reach P s) : Tok s := by
  induction h with
  | start m hm => exact tok_init m
  | next op hr hp hs ih => exact tok_step ih (reach_inv (fun s op h => (hP s op h).1) hr) (hP _ _ hp).1 (hP _ _ hp).2 hs

/-! ### Progress when the kernel accepts whole batches -/

/-- The kernel accepts every batch as a whole. -/
def Full (s : St) : Op → Prop
  | .post o => ∀ cbs, s.post = .submit cbs → o.k = cbs.length
  | _ => True

/-- The posting thread never has to reap. -/
def pFull : PPc → Prop
  | .collect l | .collect2 l | .giveBack l | .getFree l | .submit l => l ≠ []
  | .sig _ rest => rest = []
  | .reap _ | .hFree _ _ | .hComp _ _ _ | .hPost _ _ => False
  | _ => True

/-- A reaping thread has something to account for. -/
def wFull : WPc → Prop
  | .comp l | .hFree l => l ≠ []
  | _ => True

theorem full_post {s s' : St} {o : Kernel} (h : pFull s.post) (hp : Full s (.post o)) (hs : postStep s o = .ok s') : pFull s'.post := by
  unfold postStep at hs
  split at hs
  all_goals rename_i hpos
  all_goals simp only [hpos, pFull] at h
  · split at hs
    · cases hs
    injection hs with hs; subst hs; trivial
  · injection hs with hs; subst hs; split <;> trivial
  · split at hs
    · cases hs
    split at hs
    · injection hs with hs; subst hs; trivial
    · injection hs with hs; subst hs; simp [pFull]
  · injection hs with hs; subst hs; trivial
  · split at hs
    · injection hs with hs; subst hs; exact h
    · injection hs with hs; subst hs; exact h
  · split at hs
    · injection hs with hs; subst hs; exact h
    · split at hs
      · cases hs
      injection hs with hs; subst hs; simp [pFull]
  · injection hs with hs; subst hs; exact h
  · split at hs
    · cases hs
    injection hs with hs; subst hs; exact h
  · rename_i cbs
    have hk := hp cbs hpos
    have : 0 < cbs.length := List.length_pos_iff.2 h
    split at hs
    · cases hs
    split at hs
    · omega
    split at hs
    · injection hs with hs; subst hs; simp [pFull, hk]
    · cases hs
  · injection hs with hs; subst hs
    simp [afterSig, h, pFull]
  · injection hs with hs; subst hs; trivial
  · cases hs

theorem full_other {s s' : St} {op : Op} (h : ∀ o, op ≠ .post o) (hi : s.kcan = []) (hs : step s op = .ok s') : s'.post = s.post := by
  cases op with
  | post o => exact absurd rfl (h o)
  | wait o =>
    simp only [step, waitStep] at hs
    split at hs
    all_goals try (split at hs)
    all_goals try (split at hs)
    all_goals first
      | cases hs; done
      | (injection hs with hs; subst hs; rfl)
      | (rename_i s1 hco; obtain ⟨_, rfl⟩ := complete_ok hco; injection hs with hs; subst hs; rfl)
      | (rename_i hne; exact absurd hs (hne _))
  | add r =>
    simp only [step] at hs
    split at hs
    · cases hs
    split at hs
    · cases hs
    injection hs with hs; subst hs; rfl
  | addSig =>
    simp only [step] at hs
    split at hs
    · cases hs
    injection hs with hs; subst hs; rfl
  | cancelW r =>
    simp only [step] at hs
    split at hs
    · cases hs
    split at hs
    · cases hs
    injection hs with hs; subst hs; rfl
  | cancelComp r =>
    simp only [step] at hs
    split at hs
    · split at hs
      · rename_i s1 hco
        obtain ⟨_, rfl⟩ := complete_ok hco
        injection hs with hs; subst hs; rfl
      · rename_i hne
        exact absurd hs (hne _)
    · cases hs
  | cancelDone =>
    simp only [step] at hs
    split at hs
    · cases hs
    injection hs with hs; subst hs; rfl
  | cancelK r ok =>
    simp only [step] at hs
    split at hs
    · cases hs
    split at hs
    · cases hs
    split at hs
    · split at hs
      · injection hs with hs; subst hs; rfl
      · cases hs
    · injection hs with hs; subst hs; rfl
  | kstep i => simp [step, kStep, hi] at hs
  | stop =>
    simp only [step, stopStep] at hs
    split at hs
    · injection hs with hs; subst hs; rfl
    · injection hs with hs; subst hs; rfl
    · split at hs
      · injection hs with hs; subst hs; rfl
      · cases hs
    · injection hs with hs; subst hs; rfl
    · split at hs
      · injection hs with hs; subst hs; rfl
      · cases hs
    · cases hs

theorem full_step {s s' : St} {op : Op} (h : pFull s.post) (hi : Inv s) (hp : Full s op) (hs : step s op = .ok s') : pFull s'.post := by
  by_cases hop : ∃ o, op = .post o
  · obtain ⟨o, rfl⟩ := hop
    exact full_post h hp hs
  · rw [full_other (fun o e => hop ⟨o, e⟩) hi.kcan hs]; exact h

theorem reach_full {P : St → Op → Prop} (hP : ∀ s op, P s op → NoConfirm s op ∧ Full s op) {s : St} (h : Reach P s) : pFull s.post := by
  induction h with
  | start m hm => trivial
  | next op hr hp hs ih => exact full_step ih (reach_inv (fun s op h => (hP s op h).1) hr) (hP _ _ hp).2 hs

/-- Steps of threads that are already inside the queue, and of the kernel. -/
def Internal : Op → Prop
  | .addSig | .cancelComp _ | .cancelDone | .post _ | .wait _ => True
  | .stop => True
  | _ => False

def postRank (e : Bool) (tok : Nat) : PPc → Nat
  | .dead => 0
  | .exit => 1
  | .wait => if e = true ∧ tok = 0 then 2 else 6
  | .check n => if e = true ∧ ¬(tok = 1 ∧ n = 0) then 9 else 5
  | .lock => if e then 8 else 4
  | .putBack => 7
  | .collect l => 30 * l.length + 13
  | .collect2 l => 30 * l.length + 12
  | .giveBack l => 30 * l.length + 11
  | .getFree l => 30 * l.length + 10
  | .submit l => 30 * l.length + 9
  | .sig _ _ => 7
  | _ => 0

def waitRank (e : Bool) (tok : Nat) : WPc → Nat
  | .dead => 0
  | .exit => 1
  | .wait => if e = true ∧ tok = 0 then 2 else 6
  | .check _ => 5
  | .reap => 4
  | .comp l => l.length + 11
  | .hFree l => l.length + 10
  | .hComp l _ => l.length + 9
  | .hPost _ => 8

def dtorRank : DPc → Nat
  | .idle => 0
  | .setP => 20
  | .sigP => 15
  | .setW => 10
  | .sigW => 5
  | .done => 0

def rank (s : St) : Nat :=
  40 * s.waiting.length + 15 * s.infl.length + s.nsig + 2 * s.canc.length + s.ncw + postRank s.waiting.isEmpty (tokP s) s.post +
  waitRank s.infl.isEmpty (tokW s) s.wt + dtorRank s.dtor

theorem postRank_tok (e : Bool) (t : Nat) (p : PPc) : postRank e 1 p ≤ postRank e t p + 4 := by
  cases p <;> simp only [postRank] <;> cases e <;> simp <;> (try split) <;> (try split) <;> omega

theorem waitRank_wait (e : Bool) (t : Nat) : waitRank e t .wait ≤ 6 := by
  simp only [waitRank]; split <;> omega

theorem postRank_wait (e : Bool) (t : Nat) : postRank e t .wait ≤ 6 := by
  simp only [postRank]; split <;> omega

theorem waitRank_tok (e e' : Bool) (t t' : Nat) (p : WPc) : waitRank e t p ≤ waitRank e' t' p + 4 := by
  cases p <;> simp only [waitRank] <;> (try split) <;> (try split) <;> omega

/-- Nothing left to do. -/
def Final (s : St) : Prop :=
  s.dtor = .done ∨
  (s.dtor = .idle ∧ s.waiting = [] ∧ s.infl = [] ∧ s.canc = [] ∧ s.nsig = 0 ∧ s.ncw = 0 ∧ s.post = .wait ∧ s.wt = .wait)

theorem not_comp {s : St} (hi : Inv s) {r : Nat} (h : 0 < s.waiting.count r + (pHeld s.post).count r + s.infl.count r + (pEvs s.post).count r + (wEvs s.wt).count r +
  s.canc.count r) : r ∉ s.comp.map (·.1) := by
  intro hm
  have h1 := List.count_pos_iff.2 hm
  have h2 := hi.cons r
  have h3 : s.subm.count r ≤ 1 := List.nodup_iff_count.1 hi.nd r
  unfold places at h2
  omega

/-- A thread told to terminate waits for events only if there are some. -/
def Reap (s : St) : Prop := s.wt = .reap → wTerm s = true → s.infl ≠ []

theorem reap_step {s s' : St} {op : Op} (h : Reap s) (ht : Tok s) (hi : Inv s) (hn : NoConfirm s op) (hs : step s op = .ok s') : Reap s' := by
  intro hr hw
  have same : s'.wt = s.wt → wTerm s' = wTerm s → s'.infl = s.infl → s'.infl ≠ [] := by
    intro e1 e2 e3
    rw [e3]; exact h (e1 ▸ hr) (e2 ▸ hw)
  cases op with
  | post o =>
    exfalso
    have hd : s'.dtor = s.dtor := by
      simp only [step, postStep] at hs
      split at hs
      all_goals try (split at hs)
      all_goals try (split at hs)
      all_goals try (split at hs)
      all_goals first
        | cases hs; done
        | (injection hs with hs; subst hs; rfl)
        | (rename_i s1 hco; obtain ⟨_, rfl⟩ := complete_ok hco; injection hs with hs; subst hs; rfl)
        | (rename_i hne; exact absurd hs (hne _))
    have : wTerm s = true := by unfold wTerm at hw ⊢; rw [hd] at hw; exact hw
    have := ht.pdead this
    simp [step, postStep, this] at hs
  | wait o =>
    simp only [step, waitStep] at hs
    split at hs
    all_goals rename_i hpos
    · split at hs
      · cases hs
      injection hs with hs; subst hs; simp at hr
    · rename_i n
      injection hs with hs; subst hs
      simp only at hr
      have hw : wTerm s = true := hw
      split at hr
      · cases hr
      · rename_i hc
        obtain ⟨hd, hnp⟩ := ht.wchk n hpos hw
        have hdead := ht.pdead hw
        have hp := ht.p
        rw [hdead, hpos] at hp
        simp only [pSig, pAcc, wEat, wAcc, tokW, hd, hpos, wOut] at hp
        simp at hp
        intro e
        have e : s.infl = [] := e
        rw [e] at hp
        simp at hp
        exact hc ⟨hw, by omega⟩
    · split at hs
      · cases hs
      split at hs
      · injection hs with hs; subst hs; simp at hr
      · cases hs
    · injection hs with hs; subst hs; simp at hr
    · injection hs with hs; subst hs; simp at hr
    · injection hs with hs; subst hs; simp at hr
    · split at hs
      · rename_i s1 hco
        injection hs with hs; subst hs; simp at hr
      · rename_i hne
        exact absurd hs (hne _)
    · split at hs
      · cases hs
      injection hs with hs; subst hs; simp at hr
    · injection hs with hs; subst hs; simp at hr
    · cases hs
  | stop =>
    simp only [step, stopStep] at hs
    split at hs
    all_goals rename_i hd
    · injection hs with hs; subst hs; simp [wTerm] at hw
    · injection hs with hs; subst hs; simp [wTerm] at hw
    · split at hs
      · rename_i hdead
        injection hs with hs; subst hs
        have hp := ht.p
        have hr : s.wt = .reap := hr
        rw [hdead, hr] at hp
        simp only [pSig, pAcc, wEat, wAcc, tokW, hd] at hp
        intro e
        have e : s.infl = [] := e
        rw [e] at hp
        simp at hp
      · cases hs
    · injection hs with hs; subst hs
      exact h hr (by simp [wTerm, hd])
    · split at hs
      · rename_i hdead
        injection hs with hs; subst hs
        have hr : s.wt = .reap := hr
        rw [hdead] at hr; cases hr
      · cases hs
    · cases hs
  | add r =>
    simp only [step] at hs
    split at hs
    · cases hs
    split at hs
    · cases hs
    injection hs with hs; subst hs; exact same rfl rfl rfl
  | addSig =>
    simp only [step] at hs
    split at hs
    · cases hs
    injection hs with hs; subst hs; exact same rfl rfl rfl
  | cancelW r =>
    simp only [step] at hs
    split at hs
    · cases hs
    split at hs
    · cases hs
    injection hs with hs; subst hs; exact same rfl rfl rfl
  | cancelComp r =>
    simp only [step] at hs
    split at hs
    · split at hs
      · rename_i s1 hco
        obtain ⟨_, rfl⟩ := complete_ok hco
        injection hs with hs; subst hs; exact same rfl rfl rfl
      · rename_i hne
        exact absurd hs (hne _)
    · cases hs
  | cancelDone =>
    simp only [step] at hs
    split at hs
    · cases hs
    injection hs with hs; subst hs; exact same rfl rfl rfl
  | cancelK r ok =>
    simp only [step] at hs
    split at hs
    · cases hs
    split at hs
    · cases hs
    split at hs
    · rename_i hok; subst hok; exact absurd rfl (hn r)
    · injection hs with hs; subst hs; exact same rfl rfl rfl
  | kstep i => simp [step, kStep, hi.kcan] at hs

theorem reach_reap {P : St → Op → Prop} (hP : ∀ s op, P s op → NoConfirm s op ∧ Calm s op) {s : St} (h : Reach P s) : Reap s := by
  induction h with
  | start m hm => intro h; simp [init] at h
  | next op hr hp hs ih =>
    exact reap_step ih (reach_tok hP hr) (reach_inv (fun s op h => (hP s op h).1) hr) (hP _ _ hp).1 hs

/-- Collecting further requests leaves one event free for the final wait. -/
def Resv (s : St) : Prop :=
  match s.post with
  | .collect l | .getFree l => 2 ≤ l.length → 1 ≤ s.nf
  | .collect2 _ | .giveBack _ => 1 ≤ s.nf
  | _ => True

theorem nf_other {s s' : St} {op : Op} (hop : ∀ o, op ≠ .post o) (hk : s.kcan = []) (hs : step s op = .ok s') : s.nf ≤ s'.nf := by
  cases op with
  | post o => exact absurd rfl (hop o)
  | wait o =>
    simp only [step, waitStep] at hs
    split at hs
    all_goals try (split at hs)
    all_goals try (split at hs)
    all_goals first
      | cases hs; done
      | (injection hs with hs; subst hs; first | exact Nat.le_refl _ | exact Nat.le_add_right _ _)
      | (rename_i s1 hco; obtain ⟨_, rfl⟩ := complete_ok hco; injection hs with hs; subst hs; exact Nat.le_refl _)
      | (rename_i hne; exact absurd hs (hne _))
  | stop =>
    simp only [step, stopStep] at hs
    split at hs
    all_goals try (split at hs)
    all_goals first
      | cases hs; done
      | (injection hs with hs; subst hs; exact Nat.le_refl _)
  | add r =>
    simp only [step] at hs
    split at hs
    · cases hs
    split at hs
    · cases hs
    injection hs with hs; subst hs; exact Nat.le_refl _
  | addSig =>
    simp only [step] at hs
    split at hs
    · cases hs
    injection hs with hs; subst hs; exact Nat.le_refl _
  | cancelW r =>
    simp only [step] at hs
    split at hs
    · cases hs
    split at hs
    · cases hs
    injection hs with hs; subst hs; exact Nat.le_refl _
  | cancelComp r =>
    simp only [step] at hs
    split at hs
    · split at hs
      · rename_i s1 hco
        obtain ⟨_, rfl⟩ := complete_ok hco
        injection hs with hs; subst hs; exact Nat.le_refl _
      · rename_i hne
        exact absurd hs (hne _)
    · cases hs
  | cancelDone =>
    simp only [step] at hs
    split at hs
    · cases hs
    injection hs with hs; subst hs; exact Nat.le_refl _
  | cancelK r ok =>
    simp only [step] at hs
    split at hs
    · cases hs
    split at hs
    · cases hs
    split at hs
    · split at hs
      · injection hs with hs; subst hs; exact Nat.le_refl _
      · cases hs
    · injection hs with hs; subst hs; exact Nat.le_refl _
  | kstep i => simp [step, kStep, hk] at hs

theorem resv_step {s s' : St} {op : Op} (h : Resv s) (hi : Inv s) (hs : step s op = .ok s') : Resv s' := by
  by_cases hop : ∃ o, op = .post o
  · obtain ⟨o, rfl⟩ := hop
    simp only [step, postStep] at hs
    unfold Resv at h
    split at hs
    all_goals rename_i hpos
    all_goals rw [hpos] at h
    all_goals try (split at hs)
    all_goals try (split at hs)
    all_goals try (split at hs)
    all_goals first
      | cases hs; done
      | (injection hs with hs; subst hs; simp [Resv]; done)
      | (injection hs with hs; subst hs; simp [Resv, afterSig]; split <;> trivial)
      | (injection hs with hs; subst hs; simp [Resv]; split <;> trivial)
      | (injection hs with hs; subst hs; simp only [Resv]; simp only [not_or] at *; omega)
      | (injection hs with hs; subst hs; simp only [Resv]; exact h)
      | (injection hs with hs; subst hs; simp only [Resv]; intro _; exact h)
      | (rename_i s1 hco; obtain ⟨_, rfl⟩ := complete_ok hco; injection hs with hs; subst hs; simp [Resv]; done)
      | (rename_i rest; injection hs with hs; subst hs; by_cases hr : rest = [] <;> simp [Resv, afterSig, hr]; done)
      | (rename_i hne; exact absurd hs (hne _))
  · have e1 := full_other (fun o e => hop ⟨o, e⟩) hi.kcan hs
    have e2 := nf_other (fun o e => hop ⟨o, e⟩) hi.kcan hs
    unfold Resv at h ⊢
    rw [e1]
    split <;> simp_all <;> omega

theorem reach_resv {P : St → Op → Prop} (hP : ∀ s op, P s op → NoConfirm s op) {s : St} (h : Reach P s) : Resv s := by
  induction h with
  | start m hm => trivial
  | next op hr hp hs ih => exact resv_step ih (reach_inv hP hr) hs

/-- What `progress` has to find. -/
def Next (s : St) : Prop :=
  ∃ op s', Internal op ∧ (op = .stop → s.dtor ≠ .idle) ∧ Calm s op ∧ Full s op ∧ NoConfirm s op ∧ step s op = .ok s' ∧ rank s' < rank s

/-- The waiting thread can go on if something is in flight or it is in its loop. -/
theorem progress_wait {s : St} (hi : Inv s) (ht : Tok s) (hrp : Reap s) (hf : pFull s.post) (h4 : s.dtor ≠ .setW) (hsig : pSig s.post = 0)
    (hor : s.infl ≠ [] ∨ tokW s = 1 ∨ s.wt ≠ .wait) (hnd : s.wt ≠ .dead) : Next s := by
  have hp := ht.p
  have keyw : ∀ (o : Kernel) s', waitStep s o = .ok s' → rank s' < rank s → Next s :=
    fun o s' b c => ⟨.wait o, s', trivial, by simp, fun h => absurd h h4, trivial, by simp [NoConfirm], b, c⟩
  have hacc : pAcc s.post = 0 := by
    revert hf; cases s.post <;> simp [pFull, pAcc]
  rw [hsig, hacc] at hp
  cases hwt : s.wt with
  | wait =>
    have hor : s.infl ≠ [] ∨ tokW s = 1 := by
      rcases hor with h | h | h
      · exact .inl h
      · exact .inr h
      · exact absurd hwt h
    have hnp : s.np ≠ 0 := by
      rw [hwt] at hp
      simp only [wEat, wAcc] at hp
      rcases hor with h | h
      · have := List.length_pos_iff.2 h; omega
      · omega
    refine keyw {} { s with np := s.np - 1, wt := .check (s.np - 1) } (by simp [waitStep, hwt, hnp]) ?_
    have : ¬ (s.infl.isEmpty = true ∧ tokW s = 0) := by
      rintro ⟨a, b⟩
      rcases hor with h | h
      · exact h (by simpa using a)
      · omega
    simp only [rank, waitRank, hwt, if_neg this, tokP]
    omega
  | check n =>
    refine keyw {} { s with wt := if wTerm s ∧ n = 0 then .exit else .reap } (by simp [waitStep, hwt]) ?_
    have e1 : ∀ x, waitRank s.infl.isEmpty x (if wTerm s ∧ n = 0 then WPc.exit else .reap) < 5 := by
      intro x; split <;> simp [waitRank]
    have e2 := e1 (tokW { s with wt := if wTerm s ∧ n = 0 then WPc.exit else .reap })
    simp only [rank, hwt, tokP, waitRank.eq_4]
    omega
  | reap =>
    rw [hwt] at hp
    simp only [wEat, wAcc] at hp
    have hne : s.infl ≠ [] := by
      intro e
      have h0 : tokW s = 0 ∨ wTerm s = true := by
        unfold tokW wTerm
        by_cases hd : s.dtor = .sigW
        · right; simp [hd]
        · left; simp [hd]
      rcases h0 with h0 | h0
      · rw [e] at hp; simp at hp; omega
      · exact hrp hwt h0 e
    obtain ⟨r, q, hq⟩ := List.exists_cons_of_ne_nil hne
    have hpos := hi.pos
    refine keyw { evs := [r] } { s with infl := without s.infl [r], kerr := s.kerr ++ [].filter (· ∈ [r]), wt := .comp [r] } ?_ ?_
    · have : reapable s [r] = true := by
        simp [reapable, hq]; omega
      simp [waitStep, hwt, this]
    · have : (without s.infl [r]).length + 1 = s.infl.length := by simp [without, hq]
      simp only [rank, waitRank, hwt, tokP, List.length_cons, List.length_nil]
      omega
  | comp evs =>
    refine keyw {} { s with np := s.np + 1, wt := .hFree evs } (by simp [waitStep, hwt]) ?_
    simp only [rank, waitRank, hwt, tokP]; omega
  | hFree evs =>
    refine keyw {} { s with nf := s.nf + evs.length, wt := .hComp evs evs.length } (by simp [waitStep, hwt]) ?_
    simp only [rank, waitRank, hwt, tokP]; omega
  | hComp evs n =>
    cases evs with
    | nil =>
      refine keyw {} { s with wt := .hPost n } (by simp [waitStep, hwt]) ?_
      simp only [rank, waitRank, hwt, tokP, List.length_nil]; omega
    | cons r evs =>
      have hnc := not_comp hi (r := r) (by rw [hwt]; simp only [wEvs, List.count_cons_self]; omega)
      refine keyw {} { s with comp := s.comp ++ [(r, true)], wt := .hComp evs n } (by simp only [waitStep, hwt, complete_of hnc]) ?_
      simp only [rank, waitRank, hwt, tokP, List.length_cons]; omega
  | hPost n =>
    rw [hwt] at hp
    simp only [wEat, wAcc] at hp
    have : ¬ s.np < n := by omega
    refine keyw {} { s with np := s.np - n, wt := .wait } (by simp [waitStep, hwt, this]) ?_
    have e1 := waitRank_wait s.infl.isEmpty (tokW { s with np := s.np - n, wt := .wait })
    simp only [rank, waitRank.eq_9, hwt, tokP]
    omega
  | exit =>
    refine keyw {} { s with wt := .dead } (by simp [waitStep, hwt]) ?_
    simp only [rank, waitRank, hwt, tokP]; omega
  | dead => exact absurd hwt hnd

/-- Some internal step brings the queue nearer to its goal. -/
theorem progress {s : St} (hi : Inv s) (ht : Tok s) (hrp : Reap s) (hv : Resv s) (hf : pFull s.post) (hn : ¬ Final s) : Next s := by
  by_cases h1 : s.nsig = 0
  case neg =>
    refine ⟨.addSig, { s with nsig := s.nsig - 1, nw := s.nw + 1 }, trivial, by simp, trivial, trivial, by simp [NoConfirm], by simp [step, h1], ?_⟩
    simp only [rank, tokP, tokW]
    omega
  by_cases h2 : s.canc = []
  case neg =>
    obtain ⟨r, q, hq⟩ := List.exists_cons_of_ne_nil h2
    have hnc := not_comp hi (r := r) (by rw [hq, List.count_cons_self]; omega)
    refine ⟨.cancelComp r, { s with comp := s.comp ++ [(r, false)], canc := s.canc.erase r, ncw := s.ncw + 1 }, trivial, by simp, trivial, trivial, by simp [NoConfirm], ?_, ?_⟩
    · simp [step, complete_of hnc, hq]
    · have : (s.canc.erase r).length + 1 = s.canc.length := by simp [hq]
      simp only [rank, tokP, tokW]
      omega
  by_cases h3 : s.dtor = .setP
  · have hpo : pOut s.post = false := by
      cases hx : pOut s.post
      · rfl
      · have := ht.pend hx; rw [h3] at this; simp at this
    refine ⟨.stop, { s with nw := s.nw + 1, dtor := .sigP }, trivial, by simp [h3], by simp [Calm, h3], trivial, by simp [NoConfirm], by simp [step, stopStep, h3], ?_⟩
    have e1 : tokP { s with nw := s.nw + 1, dtor := DPc.sigP } = 1 := by simp [tokP, hpo]
    have e2 : tokW { s with nw := s.nw + 1, dtor := DPc.sigP } = tokW s := by simp [tokW, h3]
    have e3 := postRank_tok s.waiting.isEmpty (tokP s) s.post
    simp only [rank, e1, e2, h3, dtorRank]
    omega
  by_cases h4 : s.dtor = .setW
  · refine ⟨.stop, { s with np := s.np + 1, dtor := .sigW }, trivial, by simp [h4], by simp [Calm, h4], trivial, by simp [NoConfirm], by simp [step, stopStep, h4], ?_⟩
    have e1 : tokP { s with np := s.np + 1, dtor := DPc.sigW } = tokP s := by simp [tokP, h4]
    have e3 := waitRank_tok s.infl.isEmpty s.infl.isEmpty (tokW { s with np := s.np + 1, dtor := DPc.sigW }) (tokW s) s.wt
    simp only [rank, e1, h4, dtorRank]
    omega
  by_cases h5 : s.ncw = 0 ∨ s.nw = 0
  case neg =>
    simp only [not_or] at h5
    refine ⟨.cancelDone, { s with ncw := s.ncw - 1, nw := s.nw - 1 }, trivial, by simp, trivial, trivial, by simp [NoConfirm], by simp [step, h5], ?_⟩
    simp only [rank, tokP, tokW]
    omega
  have hw := ht.w
  have hp := ht.p
  rw [h1, h2] at hw
  simp only [List.length_nil] at hw
  have key : ∀ (o : Kernel) s', Full s (.post o) → postStep s o = .ok s' → rank s' < rank s → Next s :=
    fun o s' a b c => ⟨.post o, s', trivial, by simp, fun h => absurd h h3, a, by simp [NoConfirm], b, c⟩
  have waiter := progress_wait hi ht hrp hf h4
  have nofull : ∀ o, (∀ cbs, s.post ≠ .submit cbs) → Full s (.post o) := fun o h cbs e => absurd e (h cbs)
  have wframe : ∀ p w, tokW { s with post := p, waiting := w } = tokW s := fun _ _ => rfl
  cases hpos : s.post with
  | wait =>
    rw [hpos] at hw
    simp only [pEat] at hw
    by_cases h6 : s.waiting = [] ∧ tokP s = 0
    · -- the posting thread has nothing to do
      have hn6 : s.dtor ≠ .sigP := by
        intro e; have := h6.2; simp [tokP, e, hpos, pOut] at this
      have hd : s.dtor = .idle := by
        cases hd : s.dtor with
        | idle => rfl
        | setP => exact absurd hd h3
        | sigP => exact absurd hd hn6
        | setW => exact absurd hd h4
        | sigW => have := ht.pdead (by simp [wTerm, hd]); rw [hpos] at this; cases this
        | done => have := ht.pdead (by simp [wTerm, hd]); rw [hpos] at this; cases this
      have hncw : s.ncw = 0 := by
        rcases h5 with h5 | h5
        · exact h5
        · rw [h5, h6.1, h6.2] at hw; simp at hw; omega
      have hnd : s.wt ≠ .dead := by
        intro e
        rcases (ht.wend (by rw [e]; rfl)).2 with h | h <;> (rw [hd] at h; cases h)
      by_cases h7 : s.infl = [] ∧ s.wt = .wait
      · exact absurd (Or.inr ⟨hd, h6.1, h7.1, h2, h1, hncw, hpos, h7.2⟩) hn
      · refine waiter (by rw [hpos]; rfl) ?_ hnd
        by_cases h8 : s.infl = []
        · right; right; intro e; exact h7 ⟨h8, e⟩
        · exact .inl h8
    · have hncw : s.ncw = 0 ∨ s.nw = 0 := h5
      have htp : tokP s = 0 ∨ tokP s = 1 := by unfold tokP; split <;> simp
      have hpos' : 0 < s.waiting.length + tokP s := by
        rcases htp with e | e
        · have : s.waiting ≠ [] := fun h => h6 ⟨h, e⟩
          have := List.length_pos_iff.2 this; omega
        · omega
      have hnw : s.nw ≠ 0 := by omega
      have hncw : s.ncw = 0 := hncw.resolve_right hnw
      refine key {} { s with nw := s.nw - 1, post := .check (s.nw - 1) } (nofull _ (by simp [hpos])) (by simp [postStep, hpos, hnw]) ?_
      have e1 : tokP { s with nw := s.nw - 1, post := .check (s.nw - 1) } = tokP s := by simp [tokP, hpos, pOut]
      have h6' : ¬ (s.waiting.isEmpty = true ∧ tokP s = 0) := by simpa using h6
      have h8 : ¬ (s.waiting.isEmpty = true ∧ ¬(tokP s = 1 ∧ s.nw - 1 = 0)) := by
        rintro ⟨a, b⟩
        have a : s.waiting = [] := by simpa using a
        have : tokP s = 1 := by
          rcases htp with e | e
          · exact absurd ⟨a, e⟩ h6
          · exact e
        rw [a] at hw
        simp at hw
        exact b ⟨this, by omega⟩
      simp only [rank, e1, hpos, postRank, if_neg h6', if_neg h8, tokW]
      omega
  | check n =>
    refine key {} { s with post := if s.dtor ≠ .idle ∧ n = 0 then .exit else .lock } (nofull _ (by simp [hpos])) (by simp [postStep, hpos]) ?_
    simp only [rank, hpos, tokW]
    by_cases hc : s.dtor ≠ .idle ∧ n = 0
    · simp only [if_pos hc, postRank]
      have : 5 ≤ (if s.waiting.isEmpty = true ∧ ¬(tokP s = 1 ∧ n = 0) then 9 else 5) := by split <;> omega
      omega
    · simp only [if_neg hc, postRank]
      by_cases he : s.waiting.isEmpty = true
      · have : ¬ (tokP s = 1 ∧ n = 0) := by
          rintro ⟨a, b⟩
          apply hc
          refine ⟨?_, b⟩
          intro e
          simp [tokP, e] at a
        simp only [he, this]
        simp
      · simp only [he]; simp
  | lock =>
    have hl : locked s = false := by simp [locked, hpos, hi.kcan]
    cases hq : s.waiting with
    | nil =>
      refine key {} { s with post := .putBack } (nofull _ (by simp [hpos])) (by simp [postStep, hpos, hl, hq]) ?_
      simp only [rank, hpos, tokW, postRank, hq]
      simp
    | cons r q =>
      refine key {} { s with waiting := q, post := .collect [r] } (nofull _ (by simp [hpos])) (by simp [postStep, hpos, hl, hq]) ?_
      simp only [rank, hpos, tokW, postRank, hq, List.length_cons, List.length_nil]
      simp
      omega
  | putBack =>
    refine key {} { s with nw := s.nw + 1, post := .wait } (nofull _ (by simp [hpos])) (by simp [postStep, hpos]) ?_
    simp only [rank, hpos, tokW, postRank]
    split <;> omega
  | collect l =>
    by_cases hc : s.waiting = [] ∨ s.nf < 2
    · refine key {} { s with post := .getFree l } (nofull _ (by simp [hpos])) (by simp [postStep, hpos, hc]) ?_
      simp only [rank, hpos, tokW, postRank]; omega
    · refine key {} { s with nf := s.nf - 1, post := .collect2 l } (nofull _ (by simp [hpos])) (by simp only [postStep, hpos, if_neg hc]) ?_
      simp only [rank, hpos, tokW, postRank]; omega
  | collect2 l =>
    obtain ⟨r, q, hq⟩ := List.exists_cons_of_ne_nil (hi.c2 l hpos)
    by_cases hnw : s.nw = 0
    · refine key {} { s with post := .giveBack l } (nofull _ (by simp [hpos])) (by simp [postStep, hpos, hnw]) ?_
      simp only [rank, hpos, tokW, postRank]; omega
    · refine key {} { s with nw := s.nw - 1, waiting := q, post := .collect (l ++ [r]) } (nofull _ (by simp [hpos])) (by simp [postStep, hpos, hnw, hq]) ?_
      simp only [rank, hpos, tokW, postRank, hq, List.length_append, List.length_cons, List.length_nil]
      omega
  | giveBack l =>
    refine key {} { s with nf := s.nf + 1, post := .getFree l } (nofull _ (by simp [hpos])) (by simp [postStep, hpos]) ?_
    simp only [rank, hpos, tokW, postRank]; omega
  | getFree l =>
    by_cases hnf : s.nf = 0
    · have hfr := hi.free
      have hpp := hi.pos
      have hl : l.length < 2 := by
        unfold Resv at hv
        rw [hpos] at hv
        simp only [hnf] at hv
        omega
      rw [hpos] at hfr
      simp only [pRes, pUns, hnf] at hfr
      have hor : s.infl ≠ [] ∨ s.wt ≠ .wait := by
        by_cases he : s.infl = []
        · right; intro e
          rw [he, e] at hfr
          simp [wUns] at hfr
          omega
        · exact .inl he
      refine waiter (by rw [hpos]; rfl) (hor.imp_right Or.inr) ?_
      intro e
      have h1 := (ht.wend (by rw [e]; rfl)).1
      rw [h1, e] at hfr
      simp [wUns] at hfr
      omega
    · refine key {} { s with nf := s.nf - 1, post := .submit l } (nofull _ (by simp [hpos])) (by simp [postStep, hpos, hnf]) ?_
      simp only [rank, hpos, tokW, postRank]; omega
  | submit l =>
    have hl : l ≠ [] := by have := hf; rw [hpos] at this; exact this
    have hlen := List.length_pos_iff.2 hl
    refine key { k := l.length } { s with infl := s.infl ++ l.take l.length, post := .sig l.length (l.drop l.length) } ?_ ?_ ?_
    · intro cbs e; rw [hpos] at e; injection e with e; rw [e]
    · have : l.length ≠ 0 := by omega
      simp [postStep, hpos, hl]
    · have e3 := waitRank_tok (s.infl ++ l.take l.length).isEmpty s.infl.isEmpty (tokW s) (tokW s) s.wt
      simp only [rank, hpos, postRank, List.length_append, List.take_length]
      simp only [List.take_length] at e3
      have e4 : ∀ p i, tokW { s with post := p, infl := i } = tokW s := fun _ _ => rfl
      rw [e4]
      omega
  | sig k rest =>
    have hr : rest = [] := by have := hf; rw [hpos] at this; exact this
    refine key {} { s with np := s.np + k, post := afterSig rest } (nofull _ (by simp [hpos])) (by simp [postStep, hpos]) ?_
    simp only [rank, hpos, tokW, postRank, afterSig, hr, if_true]
    split <;> omega
  | reap l => rw [hpos] at hf; exact hf.elim
  | hFree l l' => rw [hpos] at hf; exact hf.elim
  | hComp l n l' => rw [hpos] at hf; exact hf.elim
  | hPost n l => rw [hpos] at hf; exact hf.elim
  | exit =>
    refine key {} { s with post := .dead } (nofull _ (by simp [hpos])) (by simp [postStep, hpos]) ?_
    simp only [rank, hpos, tokW, postRank]; omega
  | dead =>
    obtain ⟨hwe, hd1, hd2⟩ := ht.pend (by rw [hpos]; rfl)
    cases hd : s.dtor with
    | idle => exact absurd hd hd1
    | setP => exact absurd hd hd2
    | setW => exact absurd hd h4
    | done => exact absurd (Or.inl hd) hn
    | sigP =>
      by_cases hck : ∃ n, s.wt = .check n
      · obtain ⟨n, hck⟩ := hck
        exact waiter (by rw [hpos]; rfl) (.inr (.inr (by rw [hck]; simp))) (by rw [hck]; simp)
      · refine ⟨.stop, { s with dtor := .setW }, trivial, by simp [hd], ⟨by simp [hd], fun _ n e => hck ⟨n, e⟩⟩, trivial, by simp [NoConfirm], by simp [step, stopStep, hd, hpos], ?_⟩
        have e3 : ∀ p, tokW { s with dtor := .setW, post := p } = tokW s := by simp [tokW, hd]
        simp only [rank, hpos, postRank, hd, dtorRank, e3]
        omega
    | sigW =>
      by_cases hwd : s.wt = .dead
      · refine ⟨.stop, { s with dtor := .done }, trivial, by simp [hd], by simp [Calm, hd], trivial, by simp [NoConfirm], by simp [step, stopStep, hd, hwd], ?_⟩
        simp only [rank, hpos, postRank, hd, dtorRank, hwd, waitRank]
        omega
      · refine waiter (by rw [hpos]; rfl) ?_ hwd
        by_cases hx : s.wt = .exit
        · right; right; simp [hx]
        · right; left
          have : wOut s.wt = false := by
            revert hwd hx; cases s.wt <;> simp [wOut]
          simp [tokW, hd, this]

/-- Runs of internal steps with a kernel that takes whole batches. -/
inductive Runs : St → St → Prop where
  | refl (s : St) : Runs s s
  | next {s s1 s2 : St} (op : Op) : Internal op → (op = .stop → s.dtor ≠ .idle) → Calm s op → Full s op → NoConfirm s op →
      step s op = .ok s1 → Runs s1 s2 → Runs s s2

theorem idle_back {s s' : St} {op : Op} (hi : Inv s) (hs : step s op = .ok s') (hd : s'.dtor = .idle) : s.dtor = .idle := by
  cases op with
  | stop =>
    simp only [step, stopStep] at hs
    split at hs
    all_goals try (split at hs)
    all_goals first
      | (cases hs; done)
      | (cases hs; simp at hd)
  | post o =>
    simp only [step, postStep] at hs
    split at hs
    all_goals try (split at hs)
    all_goals try (split at hs)
    all_goals try (split at hs)
    all_goals first
      | (cases hs; done)
      | (injection hs with hs; subst hs; exact hd)
      | (rename_i s1 hco; obtain ⟨_, rfl⟩ := complete_ok hco; injection hs with hs; subst hs; exact hd)
      | (rename_i hne; exact absurd hs (hne _))
  | wait o =>
    simp only [step, waitStep] at hs
    split at hs
    all_goals try (split at hs)
    all_goals try (split at hs)
    all_goals first
      | (cases hs; done)
      | (injection hs with hs; subst hs; exact hd)
      | (rename_i s1 hco; obtain ⟨_, rfl⟩ := complete_ok hco; injection hs with hs; subst hs; exact hd)
      | (rename_i hne; exact absurd hs (hne _))
  | kstep i => simp [step, kStep, hi.kcan] at hs
  | _ =>
    simp only [step] at hs
    (try split at hs)
    all_goals try (split at hs)
    all_goals try (split at hs)
    all_goals try (split at hs)
    all_goals first
      | (cases hs; done)
      | (injection hs with hs; subst hs; exact hd)
      | (rename_i s1 hco; obtain ⟨_, rfl⟩ := complete_ok hco; injection hs with hs; subst hs; exact hd)
      | (rename_i hne; exact absurd hs (hne _))

theorem drains_of : ∀ (n : Nat) {s : St}, rank s ≤ n → Inv s → Tok s → Reap s → Resv s → pFull s.post → ∃ s', Runs s s' ∧ Final s' := by
  intro n
  induction n with
  | zero =>
    intro s hr hi ht hrp hv hf
    by_cases hn : Final s
    · exact ⟨s, .refl s, hn⟩
    · obtain ⟨op, s', _, _, _, _, _, _, hlt⟩ := progress hi ht hrp hv hf hn
      omega
  | succ n ih =>
    intro s hr hi ht hrp hv hf
    by_cases hn : Final s
    · exact ⟨s, .refl s, hn⟩
    · obtain ⟨op, s', h1, h2, h3, h4, h5, h6, hlt⟩ := progress hi ht hrp hv hf hn
      obtain ⟨s'', h7, h8⟩ := ih (s := s') (by omega) (inv_step hi h5 h6) (tok_step ht hi h5 h3 h6)
        (reap_step hrp ht hi h5 h6) (resv_step hv hi h6) (full_step hf hi h4 h6)
      exact ⟨s'', .next op h1 h2 h3 h4 h5 h6 h7, h8⟩

theorem no_ub {s : St} {op : Op} (hi : Inv s) (hn : NoConfirm s op) : step s op ≠ .ub := by
  intro h
  cases op with
  | post o =>
    simp only [step, postStep] at h
    split at h
    all_goals rename_i hpos
    all_goals try (split at h)
    all_goals try (split at h)
    all_goals try (split at h)
    all_goals try (cases h; done)
    rename_i r evs n cbs _ hne
    have hnc := not_comp hi (r := r) (by rw [hpos]; simp only [pEvs, List.count_cons_self]; omega)
    exact hne _ (complete_of hnc)
  | wait o =>
    simp only [step, waitStep] at h
    split at h
    all_goals rename_i hpos
    all_goals try (split at h)
    all_goals try (split at h)
    all_goals try (cases h; done)
    rename_i r evs n _ hne
    have hnc := not_comp hi (r := r) (by rw [hpos]; simp only [wEvs, List.count_cons_self]; omega)
    exact hne _ (complete_of hnc)
  | cancelComp r =>
    simp only [step] at h
    split at h
    · rename_i hm
      have hnc := not_comp hi (r := r) (by have := List.count_pos_iff.2 hm; omega)
      rw [complete_of hnc] at h
      cases h
    · cases h
  | kstep i => simp [step, kStep, hi.kcan] at h
  | stop =>
    simp only [step, stopStep] at h
    split at h
    all_goals try (split at h)
    all_goals (cases h; done)
  | _ =>
    simp only [step] at h
    (try split at h)
    all_goals try (split at h)
    all_goals try (split at h)
    all_goals try (split at h)
    all_goals (cases h; done)

/-- Requests with an error are being completed or are completed as successes. -/
def KInv (s : St) : Prop := ∀ r ∈ s.kerr, r ∈ pEvs s.post ∨ r ∈ wEvs s.wt ∨ (r, true) ∈ s.comp

theorem kinv_step {s s' : St} {op : Op} (h : KInv s) (hi : Inv s) (hn : NoConfirm s op) (hs : step s op = .ok s') : KInv s' := by
  have mono : s'.kerr = s.kerr → pEvs s'.post = pEvs s.post → wEvs s'.wt = wEvs s.wt → (∀ x ∈ s.comp, x ∈ s'.comp) → KInv s' := by
    intro a b c d r hr
    rw [b, c]
    rcases h r (a ▸ hr) with h | h | h
    · exact .inl h
    · exact .inr (.inl h)
    · exact .inr (.inr (d _ h))
  cases op with
  | post o =>
    simp only [step, postStep] at hs
    split at hs
    all_goals rename_i hpos
    all_goals try (split at hs)
    all_goals try (split at hs)
    all_goals try (split at hs)
    all_goals first
      | (cases hs; done)
      | (injection hs with hs; subst hs; exact mono rfl (by rw [hpos]; rfl) rfl (fun _ h => h))
      | (injection hs with hs; subst hs; refine mono rfl ?_ rfl (fun _ h => h); rw [hpos]; simp only; split <;> rfl)
      | (injection hs with hs; subst hs; refine mono rfl ?_ rfl (fun _ h => h); rw [hpos]; exact (afterSig_held _).2.1)
      | (rename_i hne; exact absurd hs (hne _))
      | skip
    · injection hs with hs; subst hs
      intro r hr
      simp only [List.mem_append, List.mem_filter, decide_eq_true_eq] at hr
      rcases hr with hr | ⟨_, hr⟩
      · rcases h r hr with h | h | h
        · rw [hpos] at h; simp [pEvs] at h
        · exact .inr (.inl h)
        · exact .inr (.inr h)
      · exact .inl hr
    · rename_i r evs n cbs s1 hco
      obtain ⟨_, rfl⟩ := complete_ok hco
      injection hs with hs; subst hs
      intro r' hr
      rcases h r' hr with h | h | h
      · rw [hpos] at h
        simp only [pEvs, List.mem_cons] at h
        rcases h with h | h
        · subst h; right; right; simp
        · left; exact h
      · exact .inr (.inl h)
      · right; right; simp [h]
  | wait o =>
    simp only [step, waitStep] at hs
    split at hs
    all_goals rename_i hpos
    all_goals try (split at hs)
    all_goals try (split at hs)
    all_goals first
      | (cases hs; done)
      | (injection hs with hs; subst hs; exact mono rfl rfl (by rw [hpos]; rfl) (fun _ h => h))
      | (injection hs with hs; subst hs; refine mono rfl rfl ?_ (fun _ h => h); rw [hpos]; simp only; split <;> rfl)
      | (rename_i hne; exact absurd hs (hne _))
      | skip
    · injection hs with hs; subst hs
      intro r hr
      simp only [List.mem_append, List.mem_filter, decide_eq_true_eq] at hr
      rcases hr with hr | ⟨_, hr⟩
      · rcases h r hr with h | h | h
        · exact .inl h
        · rw [hpos] at h; simp [wEvs] at h
        · exact .inr (.inr h)
      · exact .inr (.inl hr)
    · rename_i r evs n s1 hco
      obtain ⟨_, rfl⟩ := complete_ok hco
      injection hs with hs; subst hs
      intro r' hr
      rcases h r' hr with h | h | h
      · exact .inl h
      · rw [hpos] at h
        simp only [wEvs, List.mem_cons] at h
        rcases h with h | h
        · subst h; right; right; simp
        · right; left; exact h
      · right; right; simp [h]
  | kstep i => simp [step, kStep, hi.kcan] at hs
  | stop =>
    simp only [step, stopStep] at hs
    split at hs
    all_goals try (split at hs)
    all_goals first
      | (cases hs; done)
      | (cases hs; exact mono rfl rfl rfl (fun _ h => h))
  | cancelK r ok =>
    simp only [step] at hs
    split at hs
    · cases hs
    split at hs
    · cases hs
    split at hs
    · rename_i hok; subst hok; exact absurd rfl (hn r)
    · cases hs; exact h
  | _ =>
    simp only [step] at hs
    (try split at hs)
    all_goals try (split at hs)
    all_goals try (split at hs)
    all_goals try (split at hs)
    all_goals first
      | (cases hs; done)
      | (cases hs; exact mono rfl rfl rfl (fun _ h => h))
      | (rename_i s1 hco; obtain ⟨_, rfl⟩ := complete_ok hco; injection hs with hs; subst hs; exact mono rfl rfl rfl (fun _ h => by simp [h]))
      | (rename_i hne; exact absurd hs (hne _))

theorem reach_kerr {s : St} (h : Reach NoConfirm s) : KInv s ∧ ∀ r ∈ s.kerr, ∀ b, (r, b) ∈ s.comp → b = true := by
  have hk : KInv s := by
    induction h with
    | start m hm => intro r hr; simp [init] at hr
    | next op hr hp hs ih => exact kinv_step ih (reach_inv (fun _ _ h => h) hr) hp hs
  refine ⟨hk, ?_⟩
  intro r hr b hb
  have hi := reach_inv (fun _ _ h => h) h
  have hle : places s r ≤ 1 := by rw [hi.cons r]; exact List.nodup_iff_count.1 hi.nd r
  have hm : r ∈ s.comp.map (·.1) := List.mem_map.2 ⟨_, hb, rfl⟩
  have hc := List.count_pos_iff.2 hm
  simp only [places] at hle
  rcases hk r hr with h | h | h
  · have := List.count_pos_iff.2 h; omega
  · have := List.count_pos_iff.2 h; omega
  · cases b with
    | true => rfl
    | false =>
      exfalso
      obtain ⟨l1, l2, he⟩ := List.append_of_mem h
      rw [he] at hb hle
      simp only [List.map_append, List.map_cons, List.count_append, List.count_cons_self] at hle
      simp only [List.mem_append, List.mem_cons] at hb
      rcases hb with hb | hb | hb
      · have := List.count_pos_iff.2 (List.mem_map.2 ⟨_, hb, rfl⟩ : r ∈ l1.map (·.1)); omega
      · cases hb
      · have := List.count_pos_iff.2 (List.mem_map.2 ⟨_, hb, rfl⟩ : r ∈ l2.map (·.1)); omega

end Foxxll.Aio
