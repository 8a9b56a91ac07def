/-
Invariant of a request: exactly one thread completes it.
-/
import Verif.Model.Requests
set_option linter.unusedSimpArgs false
set_option linter.unusedVariables false

namespace Foxxll.Request

structure Data (s : St) (st : RS) (calls : List Bool) (rets notified fref : Nat) (file served : Bool) : Prop where
  st : s.st = st
  calls : s.calls = calls
  rets : s.rets = rets
  notified : s.notified = notified
  fref : s.fref = fref
  file : s.file = file
  served : s.served = served

/-- Calls of the handler after it was called with flag `b`. -/
def hc (s : St) (b : Bool) : List Bool := if s.h then [b] else []
def hr (s : St) : Nat := if s.h then 1 else 0

/-- The owner of the request at position `p`. -/
def Own (s : St) (b : Bool) : Pc → Prop
  | .serve => b = true ∧ Data s .op [] 0 0 1 true false
  | .setDone ok => ok = b ∧ Data s .op [] 0 0 1 true b
  | .callBegin ok => ok = b ∧ Data s .done [] 0 0 1 true b
  | .callEnd ok => ok = b ∧ s.h = true ∧ Data s .done [b] 0 0 1 true b
  | .notify ok => ok = b ∧ Data s .done (hc s b) (hr s) 0 1 true b
  | .delRef ok => ok = b ∧ Data s .done (hc s b) (hr s) 1 1 true b
  | .nullFile ok => ok = b ∧ Data s .done (hc s b) (hr s) 1 0 true b
  | .setReady ok => ok = b ∧ Data s .done (hc s b) (hr s) 1 0 false b
  | .ret r => r = true ∧ Data s .ready2die (hc s b) (hr s) 1 0 false b
  | _ => False

/-- Positions of a thread that does not own the request. -/
def Free : Pc → Prop
  | .idle | .check | .deref | .queue => True
  | .ret b => b = false
  | _ => False

def Inv (s : St) : Prop :=
  match s.taken with
  | none => Data s .op [] 0 0 1 true false ∧ s.srv = .idle ∧ ∀ t, Free (s.can t)
  | some .server => Own s true s.srv ∧ ∀ t, Free (s.can t)
  | some (.canceller t) => Own s false (s.can t) ∧ s.srv = .idle ∧ ∀ u, u ≠ t → Free (s.can u)

theorem inv_init (h : Bool) : Inv (init h) := by
  exact ⟨⟨rfl, rfl, rfl, rfl, rfl, rfl, rfl⟩, rfl, fun _ => trivial⟩

theorem Own.congr {s s' : St} {b : Bool} {p : Pc} (h : Own s b p) (e0 : s'.h = s.h) (e1 : s'.st = s.st) (e2 : s'.calls = s.calls)
    (e3 : s'.rets = s.rets) (e4 : s'.notified = s.notified) (e5 : s'.fref = s.fref) (e6 : s'.file = s.file)
    (e7 : s'.served = s.served) : Own s' b p := by
  have key : ∀ {a c d e f g i}, Data s a c d e f g i → Data s' a c d e f g i := by
    intro a c d e f g i h
    exact ⟨e1 ▸ h.st, e2 ▸ h.calls, e3 ▸ h.rets, e4 ▸ h.notified, e5 ▸ h.fref, e6 ▸ h.file, e7 ▸ h.served⟩
  cases p <;> simp only [Own, hc, hr, e0] at h ⊢ <;> first | exact h.elim | exact ⟨h.1, key h.2⟩ | exact ⟨h.1, h.2.1, key h.2.2⟩

/-- The owner's completion steps preserve ownership. -/
theorem finish_own {server : Bool} {s s' : St} {p p' : Pc} (h : Own s server p)
    (hf : finish server s p = .ok (s', p')) : Own s' server p' ∧ s'.can = s.can ∧ s'.taken = s.taken ∧ s'.h = s.h ∧ s'.srv = s.srv := by
  cases p with
  | setDone ok =>
    obtain ⟨e, d⟩ := h
    simp only [finish] at hf
    injection hf with hf; injection hf with h1 h2; subst h1; subst h2
    exact ⟨⟨e, rfl, d.calls, d.rets, d.notified, d.fref, d.file, d.served⟩, rfl, rfl, rfl, rfl⟩
  | callBegin ok =>
    obtain ⟨e, d⟩ := h
    simp only [finish] at hf
    split at hf
    · rename_i hh
      injection hf with hf; injection hf with h1 h2; subst h1; subst h2
      subst e
      exact ⟨⟨rfl, hh, d.st, by simp [d.calls], d.rets, d.notified, d.fref, d.file, d.served⟩, rfl, rfl, rfl, rfl⟩
    · rename_i hh
      injection hf with hf; injection hf with h1 h2; subst h1; subst h2
      simp at hh
      refine ⟨⟨e, ?_⟩, rfl, rfl, rfl, rfl⟩
      simp only [hc, hr, hh]
      exact d
  | callEnd ok =>
    obtain ⟨e, hh, d⟩ := h
    simp only [finish] at hf
    injection hf with hf; injection hf with h1 h2; subst h1; subst h2
    refine ⟨⟨e, d.st, by simp [hc, hh, d.calls], by simp [hr, hh, d.rets], d.notified, d.fref, d.file, d.served⟩, rfl, rfl, rfl, rfl⟩
  | notify ok =>
    obtain ⟨e, d⟩ := h
    simp only [finish] at hf
    injection hf with hf; injection hf with h1 h2; subst h1; subst h2
    refine ⟨⟨e, d.st, d.calls, d.rets, by simp [d.notified], d.fref, d.file, d.served⟩, rfl, rfl, rfl, rfl⟩
  | delRef ok =>
    obtain ⟨e, d⟩ := h
    simp only [finish, d.file, if_true] at hf
    injection hf with hf; injection hf with h1 h2; subst h1; subst h2
    refine ⟨⟨e, d.st, d.calls, d.rets, d.notified, by simp [d.fref], by simp [d.file], d.served⟩, rfl, rfl, rfl, rfl⟩
  | nullFile ok =>
    obtain ⟨e, d⟩ := h
    simp only [finish] at hf
    injection hf with hf; injection hf with h1 h2; subst h1; subst h2
    refine ⟨⟨e, d.st, d.calls, d.rets, d.notified, d.fref, rfl, d.served⟩, rfl, rfl, rfl, rfl⟩
  | setReady ok =>
    obtain ⟨e, d⟩ := h
    simp only [finish] at hf
    injection hf with hf; injection hf with h1 h2; subst h1; subst h2
    subst e
    refine ⟨⟨by cases ok <;> rfl, rfl, d.calls, d.rets, d.notified, d.fref, d.file, d.served⟩, rfl, rfl, rfl, rfl⟩
  | ret b => simp [finish] at hf
  | serve => simp [finish] at hf
  | _ => exact h.elim

theorem finish_free {server : Bool} {s : St} {p : Pc} (h : Free p) : finish server s p = .blocked := by
  cases p <;> simp_all [Free, finish]

/-- The owner can always go on. -/
theorem finish_enabled {server : Bool} {s : St} {p : Pc} (h : Own s server p) (h1 : ∀ b, p ≠ .ret b) (h2 : p ≠ .serve) :
    ∃ x, finish server s p = .ok x := by
  cases p with
  | setDone ok => exact ⟨_, rfl⟩
  | callBegin ok => simp only [finish]; split <;> exact ⟨_, rfl⟩
  | callEnd ok => exact ⟨_, rfl⟩
  | notify ok => exact ⟨_, rfl⟩
  | delRef ok => obtain ⟨_, d⟩ := h; simp only [finish, d.file, if_true]; exact ⟨_, rfl⟩
  | nullFile ok => exact ⟨_, rfl⟩
  | setReady ok => exact ⟨_, rfl⟩
  | ret b => exact absurd rfl (h1 b)
  | serve => exact absurd rfl h2
  | _ => exact h.elim

theorem inv_setCan {s : St} {t : Nat} {p : Pc} (h : Inv s) (hf : Free (s.can t)) (hp : Free p) : Inv (setCan s t p) := by
  unfold Inv at *
  have hfr : ∀ u, Free (s.can u) → Free ((setCan s t p).can u) := by
    intro u hu
    simp only [setCan]
    split
    · exact hp
    · exact hu
  have e : (setCan s t p).taken = s.taken := rfl
  rw [e]
  split at h <;> rename_i htk
  · exact ⟨⟨h.1.1, h.1.2, h.1.3, h.1.4, h.1.5, h.1.6, h.1.7⟩, h.2.1, fun u => hfr u (h.2.2 u)⟩
  · exact ⟨h.1.congr rfl rfl rfl rfl rfl rfl rfl rfl, fun u => hfr u (h.2 u)⟩
  · rename_i t'
    have hne : t' ≠ t := by
      intro e
      subst e
      have h1 := h.1
      revert h1 hf
      cases s.can t' <;> simp only [Own, Free] <;> first | exact fun h => h.elim | skip
      all_goals first | exact fun _ h => h.elim | (intro h1 h2; rw [h1] at h2; simp at h2)
    refine ⟨?_, h.2.1, fun u hu => hfr u (h.2.2 u hu)⟩
    have : (setCan s t p).can t' = s.can t' := by simp [setCan, hne]
    rw [this]
    exact h.1.congr rfl rfl rfl rfl rfl rfl rfl rfl

theorem inv_step {s s' : St} {op : Op} (h : Inv s) (hs : step s op = .ok s') : Inv s' := by
  cases op with
  | take =>
    simp only [step] at hs
    split at hs
    · rename_i hn
      injection hs with hs; subst hs
      simp only [Inv, hn] at h ⊢
      exact ⟨⟨rfl, h.1.1, h.1.2, h.1.3, h.1.4, h.1.5, h.1.6, h.1.7⟩, h.2.2⟩
    · cases hs
  | srv e =>
    simp only [step, srvStep] at hs
    split at hs
    · cases hs
    · rename_i hpc
      split at hs
      · injection hs with hs; subst hs
        unfold Inv at h ⊢
        simp only
        split at h <;> rename_i htk
        · simp [hpc] at h
        · rw [hpc] at h
          obtain ⟨⟨_, d⟩, h2⟩ := h
          rw [htk]
          exact ⟨⟨rfl, d.st, d.calls, d.rets, d.notified, d.fref, d.file, rfl⟩, h2⟩
        · simp [hpc] at h
      · cases hs
    · rename_i h1 h2
      split at hs
      · rename_i s1 p1 hf
        injection hs with hs; subst hs
        unfold Inv at h ⊢
        simp only
        split at h <;> rename_i htk
        · exact absurd h.2.1 h1
        · obtain ⟨ho, e1, e2, e3, e4⟩ := finish_own h.1 hf
          rw [e2, htk, e1]
          exact ⟨ho.congr rfl rfl rfl rfl rfl rfl rfl rfl, h.2⟩
        · exact absurd h.2.1 h1
      · cases hs
      · cases hs
  | callCancel t =>
    simp only [step] at hs
    split at hs
    · rename_i hi
      injection hs with hs; subst hs
      exact inv_setCan h (by rw [hi]; trivial) trivial
    · cases hs
  | can t =>
    simp only [step, canStep] at hs
    split at hs
    · rename_i hpc
      injection hs with hs; subst hs
      exact inv_setCan h (by rw [hpc]; trivial) (by split <;> simp [Free])
    · rename_i hpc
      split at hs
      · injection hs with hs; subst hs
        exact inv_setCan h (by rw [hpc]; trivial) trivial
      · cases hs
    · rename_i hpc
      split at hs
      · rename_i hn
        injection hs with hs; subst hs
        simp only [Inv, hn, setCan] at h ⊢
        refine ⟨?_, h.2.1, fun u hu => by simp [hu]; exact h.2.2 u⟩
        simp only [if_true]
        exact ⟨rfl, h.1.1, h.1.2, h.1.3, h.1.4, h.1.5, h.1.6, h.1.7⟩
      · injection hs with hs; subst hs
        exact inv_setCan h (by rw [hpc]; trivial) rfl
    · rename_i h1 h2 h3
      split at hs
      · rename_i s1 p1 hf
        injection hs with hs; subst hs
        unfold Inv at h ⊢
        have hnf : ¬ Free (s.can t) := by
          intro hfr
          rw [finish_free hfr] at hf
          cases hf
        split at h <;> rename_i htk
        · exact absurd (h.2.2 t) hnf
        · exact absurd (h.2 t) hnf
        · rename_i t'
          have htt : t = t' := by
            false_or_by_contra
            rename_i hne
            exact hnf (h.2.2 t hne)
          subst htt
          obtain ⟨ho, e1, e2, e3, e4⟩ := finish_own h.1 hf
          have : (setCan s1 t p1).taken = some (.canceller t) := by simp [setCan, e2, htk]
          rw [this]
          refine ⟨?_, ?_, ?_⟩
          · have : (setCan s1 t p1).can t = p1 := by simp [setCan]
            rw [this]
            exact ho.congr rfl rfl rfl rfl rfl rfl rfl rfl
          · show s1.srv = .idle
            rw [e4]; exact h.2.1
          · intro u hu
            simp only [setCan, if_neg hu, e1]
            exact h.2.2 u hu
      · cases hs
      · cases hs

theorem reach_inv {P : St → Op → Prop} {s : St} (h : Reach P s) : Inv s := by
  induction h with
  | start h => exact inv_init h
  | next op _ _ hs ih => exact inv_step ih hs

/-- Data of the request in any reachable state, by its state. -/
theorem Own.cases {s : St} {b : Bool} {p : Pc} (h : Own s b p) :
    (s.calls = [] ∨ s.calls = [b]) ∧ (s.st ≠ .op → s.served = b) ∧
    (s.st = .ready2die → Data s .ready2die (hc s b) (hr s) 1 0 false b) ∧
    (s.file = false → p = .setReady b ∨ p = .ret true) := by
  cases p <;> simp only [Own] at h
  all_goals first | exact h.elim | skip
  · obtain ⟨_, d⟩ := h
    exact ⟨.inl d.calls, fun h => absurd d.st h, fun h => by rw [d.st] at h; simp at h, fun h => by rw [d.file] at h; simp at h⟩
  · obtain ⟨_, d⟩ := h
    exact ⟨.inl d.calls, fun _ => d.served, fun h => by rw [d.st] at h; simp at h, fun h => by rw [d.file] at h; simp at h⟩
  · obtain ⟨_, d⟩ := h
    exact ⟨.inl d.calls, fun _ => d.served, fun h => by rw [d.st] at h; simp at h, fun h => by rw [d.file] at h; simp at h⟩
  · obtain ⟨_, _, d⟩ := h
    exact ⟨.inr d.calls, fun _ => d.served, fun h => by rw [d.st] at h; simp at h, fun h => by rw [d.file] at h; simp at h⟩
  · obtain ⟨_, d⟩ := h
    exact ⟨by rw [d.calls]; unfold hc; split <;> simp, fun _ => d.served, fun h => by rw [d.st] at h; simp at h, fun h => by rw [d.file] at h; simp at h⟩
  · obtain ⟨_, d⟩ := h
    exact ⟨by rw [d.calls]; unfold hc; split <;> simp, fun _ => d.served, fun h => by rw [d.st] at h; simp at h, fun h => by rw [d.file] at h; simp at h⟩
  · obtain ⟨_, d⟩ := h
    exact ⟨by rw [d.calls]; unfold hc; split <;> simp, fun _ => d.served, fun h => by rw [d.st] at h; simp at h, fun h => by rw [d.file] at h; simp at h⟩
  · obtain ⟨e, d⟩ := h
    exact ⟨by rw [d.calls]; unfold hc; split <;> simp, fun _ => d.served, fun h => by rw [d.st] at h; simp at h, fun _ => .inl (by rw [e])⟩
  · obtain ⟨e, d⟩ := h
    exact ⟨by rw [d.calls]; unfold hc; split <;> simp, fun _ => d.served, fun _ => d, fun _ => .inr (by rw [e])⟩

/-- Remaining steps of the owner. -/
def rank : Pc → Nat
  | .serve => 8
  | .setDone _ => 7
  | .callBegin _ => 6
  | .callEnd _ => 5
  | .notify _ => 4
  | .delRef _ => 3
  | .nullFile _ => 2
  | .setReady _ => 1
  | _ => 0

theorem finish_rank {server : Bool} {s s' : St} {p p' : Pc} (h : Own s server p)
    (hf : finish server s p = .ok (s', p')) : rank p' < rank p := by
  cases p <;> simp only [finish] at hf
  case callBegin ok => split at hf <;> (injection hf with hf; injection hf with _ h2; subst h2; simp [rank])
  case delRef ok =>
    obtain ⟨_, d⟩ := h
    simp only [d.file, if_true] at hf
    injection hf with hf; injection hf with _ h2; subst h2; simp [rank]
  all_goals first | (injection hf with hf; injection hf with _ h2; subst h2; simp [rank]; done) | cases hf

/-- A run of steps of the owner. -/
inductive Runs : St → St → Prop
  | refl (s) : Runs s s
  | step {s s' t} (op : Op) : step s op = .ok s' → Runs s' t → Runs s t

theorem completes_server : ∀ n (s : St), Inv s → s.taken = some .server → rank s.srv ≤ n →
    ∃ t, Runs s t ∧ t.st = .ready2die ∧ t.taken = s.taken := by
  intro n
  induction n with
  | zero =>
    intro s hi ht hr
    unfold Inv at hi
    rw [ht] at hi
    refine ⟨s, .refl s, ?_, rfl⟩
    have ho := hi.1
    revert ho hr
    cases s.srv <;> simp [rank, Own]
    intro _ d
    exact d.st
  | succ n ih =>
    intro s hi ht hr
    have hi' := hi
    unfold Inv at hi
    rw [ht] at hi
    by_cases hret : ∃ b, s.srv = .ret b
    · obtain ⟨b, hb⟩ := hret
      have := hi.1
      rw [hb] at this
      exact ⟨s, .refl s, this.2.st, rfl⟩
    by_cases hsv : s.srv = .serve
    · have d := hi.1
      rw [hsv] at d
      have hs : step s (.srv false) = .ok { s with served := true, err := false, srv := .setDone true } := by
        simp [step, srvStep, hsv, d.2.file]
      obtain ⟨t, h1, h2, h3⟩ := ih _ (inv_step hi' hs) ht (by rw [hsv] at hr; simp [rank] at hr ⊢; omega)
      exact ⟨t, .step _ hs h1, h2, h3⟩
    · obtain ⟨⟨s1, p1⟩, hf⟩ := finish_enabled hi.1 (fun b h => hret ⟨b, h⟩) hsv
      obtain ⟨ho, e1, e2, e3, e4⟩ := finish_own hi.1 hf
      have hs : step s (.srv false) = .ok { s1 with srv := p1 } := by
        have hni : s.srv ≠ .idle := by
          intro h
          have := hi.1
          rw [h] at this
          exact this
        simp only [step, srvStep, hf]
      have hrk := finish_rank hi.1 hf
      obtain ⟨t, h1, h2, h3⟩ := ih _ (inv_step hi' hs) (by rw [← ht, ← e2]) (by simp only; omega)
      exact ⟨t, .step _ hs h1, h2, by rw [h3, ← e2]⟩

theorem completes_canceller (c : Nat) : ∀ n (s : St), Inv s → s.taken = some (.canceller c) → rank (s.can c) ≤ n →
    ∃ t, Runs s t ∧ t.st = .ready2die ∧ t.taken = s.taken := by
  intro n
  induction n with
  | zero =>
    intro s hi ht hr
    unfold Inv at hi
    rw [ht] at hi
    refine ⟨s, .refl s, ?_, rfl⟩
    have ho := hi.1
    revert ho hr
    cases s.can c <;> simp [rank, Own]
    intro _ d
    exact d.st
  | succ n ih =>
    intro s hi ht hr
    have hi' := hi
    unfold Inv at hi
    rw [ht] at hi
    by_cases hret : ∃ b, s.can c = .ret b
    · obtain ⟨b, hb⟩ := hret
      have := hi.1
      rw [hb] at this
      exact ⟨s, .refl s, this.2.st, rfl⟩
    have hsv : s.can c ≠ .serve := by
      intro h
      have := hi.1
      rw [h] at this
      simp [Own] at this
    obtain ⟨⟨s1, p1⟩, hf⟩ := finish_enabled hi.1 (fun b h => hret ⟨b, h⟩) hsv
    obtain ⟨ho, e1, e2, e3, e4⟩ := finish_own hi.1 hf
    have hs : step s (.can c) = .ok (setCan s1 c p1) := by
      have hx := hi.1
      simp only [step, canStep, hf]
      split
      · rename_i h; rw [h] at hx; exact hx.elim
      · rename_i h; rw [h] at hx; exact hx.elim
      · rename_i h; rw [h] at hx; exact hx.elim
      · simp only [hf]
    have hrk := finish_rank hi.1 hf
    obtain ⟨t, h1, h2, h3⟩ := ih _ (inv_step hi' hs) (by rw [← ht, ← e2]; rfl) (by simp [setCan]; omega)
    exact ⟨t, .step _ hs h1, h2, by rw [h3, ← e2]; rfl⟩

end Foxxll.Request
