import Verif.Proofs.Store
/-
Failed transfers; evaluation of concrete histories.
-/
namespace Foxxll.Store
open Foxxll

variable {k : Queue.Kind} {qid : Nat → Nat} {cfgs : List (Nat × Bool)}

theorem queue_failed {s s' : St} {i : Nat} {op : Queue.Op} (h : s.queue k i op = some s') : s'.failed = s.failed ∧ s'.reqs = s.reqs := by
  obtain ⟨q, _, h2⟩ := queue_some h
  subst h2; exact ⟨rfl, rfl⟩

/-- Only served requests fail. -/
theorem life_failed {P : Op → Prop} {s : St} {h : Hist} (hl : Life k qid cfgs P s h) :
    ∀ x ∈ s.failed, ∃ q, s.reqs x = some q ∧ x ∈ (s.qs (qid q.disk)).served := by
  induction hl with
  | start => intro x hx; simp [init] at hx
  | @next s s' h op hl ha hp hs ih =>
    have I := life_any hl
    intro x hx
    have hquiet : ∀ {i : Nat} {q : Queue.St}, Quiet (s.qs i) q → x ∈ s.failed →
        ∃ q', s.reqs x = some q' ∧ x ∈ (upd s.qs i q (qid q'.disk)).served := by
      intro i q hq hx
      obtain ⟨q', h1, h2⟩ := ih x hx
      refine ⟨q', h1, ?_⟩
      rw [upd_cases (P := fun j (a : Queue.St) => a.served = (s.qs j).served) hq.served (fun _ => rfl)]; exact h2
    cases op with
    | mgr op =>
      simp only [step] at hs
      injection hs with hs; subst hs
      exact ih x hx
    | fill buf data =>
      simp only [step] at hs
      injection hs with hs; subst hs
      exact ih x hx
    | io r w b buf =>
      simp only [step] at hs
      split at hs
      · rename_i d hd
        obtain ⟨q, h1, h2⟩ := queue_some hs
        subst h2
        obtain ⟨q', g1, g2⟩ := ih x hx
        have hne : x ≠ r := by
          intro e; subst e; rw [ha.1] at g1; cases g1
        refine ⟨q', by show upd s.reqs r _ x = _; rw [upd_other _ _ hne]; exact g1, ?_⟩
        show x ∈ (upd s.qs (qid d) q (qid q'.disk)).served
        rw [upd_cases (P := fun j (a : Queue.St) => a.served = (s.qs j).served) (push_some h1).2.1 (fun _ => rfl)]; exact g2
      · cases hs
    | cancel r =>
      simp only [step] at hs
      split at hs
      · obtain ⟨q, h1, h2⟩ := queue_some hs
        subst h2
        exact hquiet (cancel_quiet h1) hx
      · cases hs
    | run i qop os =>
      cases qop with
      | signal =>
        simp only [step] at hs
        obtain ⟨q, h1, h2⟩ := queue_some hs
        subst h2
        exact hquiet (signal_quiet h1) hx
      | cancelTake =>
        simp only [step] at hs
        obtain ⟨q, h1, h2⟩ := queue_some hs
        subst h2
        exact hquiet (cancelTake_quiet h1) hx
      | work =>
        simp only [step] at hs
        obtain ⟨q', h1, h2⟩ := queue_some hs
        subst h2
        by_cases hw : ∃ x, (s.qs i).wpc = .serving x
        · obtain ⟨y, hw⟩ := hw
          have e : s.transfer i os = s.serve y os := by unfold St.transfer; rw [hw]
          rw [e] at h1 hx ⊢
          obtain ⟨q, g1, g2, g3, g4, _⟩ := I.serve any_mild hw os h1
          show ∃ q, (s.serve y os).reqs x = some q ∧ _
          rw [g3.reqs]
          rcases g3.only x hx with h | h
          · subst h
            exact ⟨q, g1, by rw [g4.served]; simp⟩
          · obtain ⟨q2, p1, p2⟩ := ih x h
            exact ⟨q2, p1, g4.mem_served p2⟩
        · have hw' : ∀ x, (s.qs i).wpc ≠ .serving x := fun x hx => hw ⟨x, hx⟩
          have e : s.transfer i os = s := by
            unfold St.transfer
            split
            · rename_i r hr; exact absurd hr (hw' r)
            · rfl
          rw [e] at h1 hx ⊢
          exact hquiet (work_quiet hw' h1) hx
      | _ => simp [step] at hs

/-- A transfer within the file whose system calls do not fail. -/
theorem serve_good {s : St} {x : Nat} {q : Req} {os : Nat → Files.Sys} (hq : s.reqs x = some q) (hl : (s.mem q.buf).length = q.size)
    (ht : ∀ i, (s.files q.disk).size ≤ i → (s.files q.disk).byte i = 0) (hg : Files.Good os q.size) (ho : q.off + q.size ≤ 2 ^ 63)
    (hin : q.write = false → q.off + q.size ≤ (s.files q.disk).size) : (s.serve x os).failed = s.failed := by
  obtain ⟨h1, h2, _⟩ := Files.C33_errors os ht (s.mem q.buf) q.off q.size (by omega) hg ho
  unfold St.serve
  rw [hq]
  simp only
  by_cases hw : q.write = true
  · rw [if_pos hw]
    obtain ⟨f', h1⟩ := h1
    rw [h1]
  · rw [if_neg hw]
    by_cases h0 : q.size = 0
    · rw [h0]
      simp [Files.serveRead, Files.readLoop]
    · obtain ⟨b', h2⟩ := h2 (by have := hin (by simpa using hw); omega)
      rw [h2]

/-! ### Concrete histories -/

def pendingB (qid : Nat → Nat) (s : St) (r : Nat) : Bool :=
  match s.reqs r with
  | some q => !(s.qs (qid q.disk)).served.contains r && !(s.qs (qid q.disk)).cancelled.contains r
  | none => false

theorem pendingB_of {s : St} {r : Nat} (h : Pending qid s r) : pendingB qid s r = true := by
  obtain ⟨q, h1, h2, h3⟩ := h
  simp [pendingB, h1, h2, h3]

/-- All pending requests among `ids` satisfy `p`. -/
def allPending (qid : Nat → Nat) (s : St) (ids : List Nat) (p : Req → Bool) : Bool :=
  ids.all (fun r => !pendingB qid s r || (match s.reqs r with | some q => p q | none => true))

theorem allPending_of {s : St} {ids : List Nat} {p : Req → Bool} (hi : ∀ r, s.reqs r ≠ none → r ∈ ids) (h : allPending qid s ids p = true)
    {r : Nat} {q : Req} (hp : Pending qid s r) (hq : s.reqs r = some q) : p q = true := by
  unfold allPending at h
  rw [List.all_eq_true] at h
  have := h r (hi r (by rw [hq]; simp))
  rw [pendingB_of hp, hq] at this
  simpa using this

def onB (q : Req) (b : Mgr.Bid) : Bool := b.storage == .managed q.disk && b.off == q.off && b.size == q.size

theorem onB_of {q : Req} {b : Mgr.Bid} (h : q.On b) : onB q b = true := by
  simp [onB, h.1, h.2.1, h.2.2]

/-- `Allowed`, decided; `ids` are the requests made so far. -/
def allowedB (k : Queue.Kind) (qid : Nat → Nat) (s : St) (ids : List Nat) : Op → Bool
  | .mgr (.new f o out) => (List.range (o + out.length)).all (fun i => decide (f i < s.m.mgr.disks.length)) &&
      out.all (fun b => decide (0 < b.size) && (b.tmpl == 0 || b.size == b.tmpl))
  | .mgr (.delete b) => s.m.live.contains b && (k == .oneQ || allPending qid s ids (fun q => q.write || !onB q b))
  | .fill buf _ => allPending qid s ids (fun q => q.buf != buf)
  | .io r w b buf => !ids.contains r && s.m.live.contains b && (s.mem buf).length == b.size &&
      allPending qid s ids (fun q => q.buf != buf || (q.write && w)) &&
      (!w || k == .oneQ || allPending qid s ids (fun q => q.write || !onB q b))
  | .cancel _ => true
  | .run _ _ _ => true

theorem allowedB_of {s : St} {ids : List Nat} {op : Op} (hi : ∀ r, s.reqs r ≠ none → r ∈ ids) (h : allowedB k qid s ids op = true) :
    Allowed k qid s op := by
  cases op with
  | mgr op =>
    cases op with
    | new f o out =>
      simp only [allowedB, Bool.and_eq_true, List.all_eq_true, List.mem_range, decide_eq_true_eq] at h
      refine ⟨⟨fun i _ h2 => h.1 i h2, fun b hb => ⟨(h.2 b hb).1, ?_⟩⟩, fun b hb => by cases hb⟩
      simpa using (h.2 b hb).2
    | delete b =>
      simp only [allowedB, Bool.and_eq_true, Bool.or_eq_true] at h
      refine ⟨(by simpa using h.1 : b ∈ s.m.live), fun b' hb hk r q h1 h2 h3 h4 => ?_⟩
      injection hb with hb; subst hb
      rcases h.2 with h5 | h5
      · rw [hk] at h5; cases h5
      · have := allPending_of hi h5 h1 h2
        simp [h3, onB_of h4] at this
  | fill buf data =>
    intro r q h1 h2
    have := allPending_of hi h h1 h2
    simpa using this
  | io r w b buf =>
    simp only [allowedB, Bool.and_eq_true, Bool.or_eq_true] at h
    obtain ⟨⟨⟨⟨h1, h2⟩, h3⟩, h4⟩, h5⟩ := h
    refine ⟨?_, by simpa using h2, by simpa using h3, fun r' q g1 g2 g3 => ?_, fun hw hk r' q g1 g2 g3 g4 => ?_⟩
    · cases hr : s.reqs r with
      | none => rfl
      | some q =>
        have := hi r (by rw [hr]; simp)
        simp at h1; exact absurd this h1
    · have := allPending_of hi h4 g1 g2
      simpa [g3] using this
    · rcases h5 with (h5 | h5) | h5
      · simp [hw] at h5
      · rw [hk] at h5; cases h5
      · have := allPending_of hi h5 g1 g2
        simp [g3, onB_of g4] at this
  | cancel r => trivial
  | run i qop os => trivial

def Op.ids : Op → List Nat
  | .io r _ _ _ => [r]
  | _ => []

def runB (k : Queue.Kind) (qid : Nat → Nat) (pB : Op → Bool) : St → Hist → List Nat → List Op → Option (St × Hist)
  | s, h, _, [] => some (s, h)
  | s, h, ids, op :: ops =>
    if allowedB k qid s ids op && pB op then
      match step k qid s op with
      | some s' => runB k qid pB s' (h.next s op) (op.ids ++ ids) ops
      | none => none
    else none

theorem serve_reqs (s : St) (r : Nat) (os : Nat → Files.Sys) : (s.serve r os).reqs = s.reqs := by
  unfold St.serve
  split
  · rfl
  · split <;> split <;> rfl

theorem step_ids {s s' : St} {op : Op} {ids : List Nat} (hi : ∀ r, s.reqs r ≠ none → r ∈ ids) (hs : step k qid s op = some s') :
    ∀ r, s'.reqs r ≠ none → r ∈ op.ids ++ ids := by
  have hold : s'.reqs = s.reqs → ∀ r, s'.reqs r ≠ none → r ∈ op.ids ++ ids := by
    intro e r hr
    rw [e] at hr
    exact List.mem_append.2 (.inr (hi r hr))
  cases op with
  | mgr op => simp only [step] at hs; injection hs with hs; subst hs; exact hold rfl
  | fill buf data => simp only [step] at hs; injection hs with hs; subst hs; exact hold rfl
  | io r w b buf =>
    simp only [step] at hs
    split at hs
    · have := (queue_failed hs).2
      intro r' hr'
      rw [this] at hr'
      by_cases e : r' = r
      · simp [Op.ids, e]
      · simp only [upd_other _ _ e] at hr'
        exact List.mem_append.2 (.inr (hi r' hr'))
    · cases hs
  | cancel r =>
    simp only [step] at hs
    split at hs
    · exact hold (queue_failed hs).2
    · cases hs
  | run i qop os =>
    cases qop with
    | signal => exact hold (queue_failed hs).2
    | cancelTake => exact hold (queue_failed hs).2
    | work =>
      apply hold
      rw [(queue_failed hs).2]
      unfold St.transfer
      split
      · exact serve_reqs _ _ _
      · rfl
    | _ => simp [step] at hs

theorem runB_life {P : Op → Prop} {pB : Op → Bool} (hP : ∀ op, pB op = true → P op) {s s' : St} {h h' : Hist} {ids : List Nat} {ops : List Op}
    (hl : Life k qid cfgs P s h) (hi : ∀ r, s.reqs r ≠ none → r ∈ ids) (hr : runB k qid pB s h ids ops = some (s', h')) :
    Life k qid cfgs P s' h' := by
  induction ops generalizing s h ids with
  | nil =>
    simp only [runB, Option.some.injEq, Prod.mk.injEq] at hr
    rw [← hr.1, ← hr.2]; exact hl
  | cons op ops ih =>
    simp only [runB] at hr
    split at hr
    · rename_i hb
      simp only [Bool.and_eq_true] at hb
      split at hr
      · rename_i s1 hs
        exact ih (Life.next op hl (allowedB_of hi hb.1) (hP op hb.2) hs) (step_ids hi hs) hr
      · cases hr
    · cases hr

/-- Start with empty files and buffers of the given content. -/
def start (cfgs : List (Nat × Bool)) (mem : Nat → List UInt8) : Option St :=
  match Mgr.Manager.create cfgs with
  | .ok m => some (init m (fun _ => Files.emptyFile) mem)
  | .error _ => none

theorem witness {P : Op → Prop} (pB : Op → Bool) (hP : ∀ op, pB op = true → P op) (mem : Nat → List UInt8) (ops : List Op) (p : St → Hist → Bool)
    (hp : ((start cfgs mem).bind fun s => (runB k qid pB s ⟨[], fun _ => []⟩ [] ops).map fun x => p x.1 x.2) = some true) :
    ∃ s h, Life k qid cfgs P s h ∧ p s h = true := by
  cases hs : start cfgs mem with
  | none => rw [hs] at hp; simp at hp
  | some s0 =>
    rw [hs] at hp
    simp only [Option.bind_some] at hp
    cases hr : runB k qid pB s0 ⟨[], fun _ => []⟩ [] ops with
    | none => rw [hr] at hp; simp at hp
    | some x =>
      rw [hr] at hp
      simp only [Option.map_some, Option.some.injEq] at hp
      refine ⟨x.1, x.2, ?_, hp⟩
      unfold start at hs
      split at hs
      · rename_i m hm
        injection hs with hs; subst hs
        refine runB_life hP (Life.start hm (fun _ _ _ => rfl)) (fun r hr => ?_) hr
        simp [init] at hr
      · cases hs

end Foxxll.Store
