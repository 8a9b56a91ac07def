import Verif.Proofs.DevBase
import Verif.Proofs.StoreRun
import Verif.Proofs.StoreAux
/-
Evaluation of concrete histories.
-/
namespace Foxxll.DStore
open Foxxll
open Foxxll.Store (Req Wrote Hist upd upd_same upd_other bytesOf onB onB_of last blk bufs)

variable {k : Queue.Kind} {qid : Nat → Nat} {cfgs : List (Nat × Bool)} {F : Nat → Dev}

/-! ### Concrete histories -/

def pendingB (qid : Nat → Nat) (s : St) (r : Nat) : Bool :=
  match s.reqs r with
  | some q => !(s.qs (qid q.disk)).served.contains r && !(s.qs (qid q.disk)).cancelled.contains r
  | none => false

theorem pendingB_of {s : St} {r : Nat} (h : Pending qid s r) : pendingB qid s r = true := by
  obtain ⟨q, h1, h2, h3⟩ := h
  simp [pendingB, h1, h2, h3]

/-- All pending requests among `ids` satisfy `p`. -/
def allPending (qid : Nat → Nat) (s : St) (ids : List Nat) (p : Req → Bool) : Bool :=
  ids.all (fun r => !pendingB qid s r || (match s.reqs r with | some q => p q | none => true))

theorem allPending_of {s : St} {ids : List Nat} {p : Req → Bool} (hi : ∀ r, s.reqs r ≠ none → r ∈ ids) (h : allPending qid s ids p = true)
    {r : Nat} {q : Req} (hp : Pending qid s r) (hq : s.reqs r = some q) : p q = true := by
  unfold allPending at h
  rw [List.all_eq_true] at h
  have := h r (hi r (by rw [hq]; simp))
  rw [pendingB_of hp, hq] at this
  simpa using this

/-- `Allowed`, decided; `ids` are the requests made so far. -/
def allowedB (k : Queue.Kind) (qid : Nat → Nat) (s : St) (ids : List Nat) : Op → Bool
  | .mgr (.new f o out) _ _ => (List.range (o + out.length)).all (fun i => decide (f i < s.m.mgr.disks.length)) &&
      out.all (fun b => decide (0 < b.size) && (b.tmpl == 0 || b.size == b.tmpl))
  | .mgr (.delete b) _ _ => s.m.live.contains b && (k == .oneQ || allPending qid s ids (fun q => q.write || !onB q b))
  | .fill buf _ => allPending qid s ids (fun q => q.buf != buf)
  | .io r w b buf => !ids.contains r && s.m.live.contains b && (s.mem buf).length == b.size &&
      allPending qid s ids (fun q => q.buf != buf || (q.write && w)) &&
      (!w || k == .oneQ || allPending qid s ids (fun q => q.write || !onB q b))
  | .cancel _ => true
  | .run _ _ _ => true

theorem allowedB_of {s : St} {ids : List Nat} {op : Op} (hi : ∀ r, s.reqs r ≠ none → r ∈ ids) (h : allowedB k qid s ids op = true) :
    Allowed k qid s op := by
  cases op with
  | mgr op junk rm =>
    cases op with
    | new f o out =>
      simp only [allowedB, Bool.and_eq_true, List.all_eq_true, List.mem_range, decide_eq_true_eq] at h
      refine ⟨⟨fun i _ h2 => h.1 i h2, fun b hb => ⟨(h.2 b hb).1, ?_⟩⟩, fun b hb => by cases hb⟩
      simpa using (h.2 b hb).2
    | delete b =>
      simp only [allowedB, Bool.and_eq_true, Bool.or_eq_true] at h
      refine ⟨(by simpa using h.1 : b ∈ s.m.live), fun b' hb hk r q h1 h2 h3 h4 => ?_⟩
      injection hb with hb; subst hb
      rcases h.2 with h5 | h5
      · rw [hk] at h5; cases h5
      · have := allPending_of hi h5 h1 h2
        simp [h3, onB_of h4] at this
  | fill buf data =>
    intro r q h1 h2
    have := allPending_of hi h h1 h2
    simpa using this
  | io r w b buf =>
    simp only [allowedB, Bool.and_eq_true, Bool.or_eq_true] at h
    obtain ⟨⟨⟨⟨h1, h2⟩, h3⟩, h4⟩, h5⟩ := h
    refine ⟨?_, by simpa using h2, by simpa using h3, fun r' q g1 g2 g3 => ?_, fun hw hk r' q g1 g2 g3 g4 => ?_⟩
    · cases hr : s.reqs r with
      | none => rfl
      | some q =>
        have := hi r (by rw [hr]; simp)
        simp at h1; exact absurd this h1
    · have := allPending_of hi h4 g1 g2
      simpa [g3] using this
    · rcases h5 with (h5 | h5) | h5
      · simp [hw] at h5
      · rw [hk] at h5; cases h5
      · have := allPending_of hi h5 g1 g2
        simp [g3, onB_of g4] at this
  | cancel r => trivial
  | run i qop os => trivial

def Op.ids : Op → List Nat
  | .io r _ _ _ => [r]
  | _ => []

def runB (k : Queue.Kind) (qid : Nat → Nat) (pB : St → List Nat → Op → Bool) : St → Hist → List Nat → List Op → Option (St × Hist)
  | s, h, _, [] => some (s, h)
  | s, h, ids, op :: ops =>
    if allowedB k qid s ids op && pB s ids op then
      match step k qid s op with
      | some s' => runB k qid pB s' (next h s op) (op.ids ++ ids) ops
      | none => none
    else none

theorem queue_reqs {s s' : St} {i : Nat} {op : Queue.Op} (h : s.queue k i op = some s') : s'.reqs = s.reqs := by
  obtain ⟨q, _, h2⟩ := queue_some h
  subst h2; rfl

theorem serve_reqs (s : St) (r : Nat) (os : Os) : (s.serve r os).reqs = s.reqs := by
  unfold St.serve
  split
  · rfl
  · split <;> rfl

theorem step_ids {s s' : St} {op : Op} {ids : List Nat} (hi : ∀ r, s.reqs r ≠ none → r ∈ ids) (hs : step k qid s op = some s') :
    ∀ r, s'.reqs r ≠ none → r ∈ op.ids ++ ids := by
  have hold : s'.reqs = s.reqs → ∀ r, s'.reqs r ≠ none → r ∈ op.ids ++ ids := by
    intro e r hr
    rw [e] at hr
    exact List.mem_append.2 (.inr (hi r hr))
  cases op with
  | mgr op junk rm =>
    simp only [step] at hs
    injection hs with hs; subst hs
    refine hold ?_
    unfold St.manage
    simp only
    split
    · rfl
    · split
      · split <;> rfl
      · rfl
  | fill buf data => simp only [step] at hs; injection hs with hs; subst hs; exact hold rfl
  | io r w b buf =>
    simp only [step] at hs
    split at hs
    · have := queue_reqs hs
      intro r' hr'
      rw [this] at hr'
      by_cases e : r' = r
      · simp [Op.ids, e]
      · simp only [upd_other _ _ e] at hr'
        exact List.mem_append.2 (.inr (hi r' hr'))
    · cases hs
  | cancel r =>
    simp only [step] at hs
    split at hs
    · exact hold (queue_reqs hs)
    · cases hs
  | run i qop os =>
    cases qop with
    | signal => exact hold (queue_reqs hs)
    | cancelTake => exact hold (queue_reqs hs)
    | work =>
      apply hold
      rw [queue_reqs hs]
      unfold St.transfer
      split
      · exact serve_reqs _ _ _
      · rfl
    | _ => simp [step] at hs

theorem runB_life {P : St → Op → Prop} {pB : St → List Nat → Op → Bool} (hP : ∀ s ids op, (∀ r, s.reqs r ≠ none → r ∈ ids) → pB s ids op = true → P s op) {s s' : St} {h h' : Hist} {ids : List Nat} {ops : List Op}
    (hl : Life k qid cfgs F P s h) (hi : ∀ r, s.reqs r ≠ none → r ∈ ids) (hr : runB k qid pB s h ids ops = some (s', h')) :
    Life k qid cfgs F P s' h' := by
  induction ops generalizing s h ids with
  | nil =>
    simp only [runB, Option.some.injEq, Prod.mk.injEq] at hr
    rw [← hr.1, ← hr.2]; exact hl
  | cons op ops ih =>
    simp only [runB] at hr
    split at hr
    · rename_i hb
      simp only [Bool.and_eq_true] at hb
      split at hr
      · rename_i s1 hs
        exact ih (Life.next op hl (allowedB_of hi hb.1) (hP s ids op hi hb.2) hs) (step_ids hi hs) hr
      · cases hr
    · cases hr

/-- Start. -/
def start (cfgs : List (Nat × Bool)) (F : Nat → Dev) (mem : Nat → List UInt8) : Option St :=
  match Mgr.Manager.create cfgs with
  | .ok m => some (init m F (fun _ => 0) mem)
  | .error _ => none

theorem witness {P : St → Op → Prop} (pB : St → List Nat → Op → Bool) (hP : ∀ s ids op, (∀ r, s.reqs r ≠ none → r ∈ ids) → pB s ids op = true → P s op) (hF : ∀ d, (F d).Opened) (mem : Nat → List UInt8) (ops : List Op) (p : St → Hist → Bool)
    (hp : ((start cfgs F mem).bind fun s => (runB k qid pB s ⟨[], fun _ => []⟩ [] ops).map fun x => p x.1 x.2) = some true) :
    ∃ s h, Life k qid cfgs F P s h ∧ p s h = true := by
  cases hs : start cfgs F mem with
  | none => rw [hs] at hp; simp at hp
  | some s0 =>
    rw [hs] at hp
    simp only [Option.bind_some] at hp
    cases hr : runB k qid pB s0 ⟨[], fun _ => []⟩ [] ops with
    | none => rw [hr] at hp; simp at hp
    | some x =>
      rw [hr] at hp
      simp only [Option.map_some, Option.some.injEq] at hp
      refine ⟨x.1, x.2, ?_, hp⟩
      unfold start at hs
      split at hs
      · rename_i m hm
        injection hs with hs; subst hs
        refine runB_life hP (Life.start hm hF) (fun r hr => ?_) hr
        simp [init] at hr
      · cases hs

end Foxxll.DStore
