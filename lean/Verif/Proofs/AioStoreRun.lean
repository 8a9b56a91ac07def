import Verif.Proofs.AioStoreInv
import Verif.Proofs.StoreRun
/-
Evaluation of concrete histories of the linuxaio store.
-/
namespace Foxxll.AioStore
open Foxxll
open Foxxll.Store (Req Wrote Hist upd onB onB_of upd_other)

variable {qid : Nat → Nat} {cfgs : List (Nat × Bool)}

def pendingB (qid : Nat → Nat) (s : St) (r : Nat) : Bool :=
  match s.reqs r with
  | some q => !((s.qs (qid q.disk)).comp.map (·.1)).contains r
  | none => false

theorem pendingB_of {s : St} {r : Nat} (h : Pending qid s r) : pendingB qid s r = true := by
  obtain ⟨q, h1, h2⟩ := h
  simpa [pendingB, h1] using h2

def allPending (qid : Nat → Nat) (s : St) (ids : List Nat) (p : Req → Bool) : Bool :=
  ids.all (fun r => !pendingB qid s r || (match s.reqs r with | some q => p q | none => true))

theorem allPending_of {s : St} {ids : List Nat} {p : Req → Bool} (hi : ∀ r, s.reqs r ≠ none → r ∈ ids) (h : allPending qid s ids p = true)
    {r : Nat} {q : Req} (hp : Pending qid s r) (hq : s.reqs r = some q) : p q = true := by
  unfold allPending at h
  rw [List.all_eq_true] at h
  have := h r (hi r (by rw [hq]; simp))
  rw [pendingB_of hp, hq] at this
  simpa using this

/-- `Allowed`, decided; `ids` are the requests made so far. -/
def allowedB (qid : Nat → Nat) (s : St) (ids : List Nat) : Op → Bool
  | .mgr (.new f o out) => (List.range (o + out.length)).all (fun i => decide (f i < s.m.mgr.disks.length)) &&
      out.all (fun b => decide (0 < b.size) && (b.tmpl == 0 || b.size == b.tmpl))
  | .mgr (.delete b) => s.m.live.contains b
  | .fill buf _ => allPending qid s ids (fun q => q.buf != buf)
  | .io r w b buf => !ids.contains r && s.m.live.contains b && (s.mem buf).length == b.size &&
      allPending qid s ids (fun q => q.buf != buf || (q.write && w))
  | _ => true

def waitsB (qid : Nat → Nat) (s : St) (ids : List Nat) : Op → Bool
  | .mgr (.delete b) => allPending qid s ids (fun q => !onB q b)
  | .io _ w b _ => allPending qid s ids (fun q => !onB q b || (!q.write && !w))
  | _ => true

def noConfirmB : Op → Bool
  | .cancel _ ok => !ok
  | _ => true

theorem allowedB_of {s : St} {ids : List Nat} {op : Op} (hi : ∀ r, s.reqs r ≠ none → r ∈ ids) (h : allowedB qid s ids op = true) :
    Allowed qid s op := by
  cases op with
  | mgr op =>
    cases op with
    | new f o out =>
      simp only [allowedB, Bool.and_eq_true, List.all_eq_true, List.mem_range, decide_eq_true_eq] at h
      refine ⟨fun i _ h2 => h.1 i h2, fun b hb => ⟨(h.2 b hb).1, ?_⟩⟩
      simpa using (h.2 b hb).2
    | delete b => exact (by simpa [allowedB] using h : b ∈ s.m.live)
  | fill buf data =>
    intro r q h1 h2
    have := allPending_of hi h h1 h2
    simpa using this
  | io r w b buf =>
    simp only [allowedB, Bool.and_eq_true] at h
    obtain ⟨⟨⟨h1, h2⟩, h3⟩, h4⟩ := h
    refine ⟨?_, by simpa using h2, by simpa using h3, fun r' q g1 g2 g3 => ?_⟩
    · cases hr : s.reqs r with
      | none => rfl
      | some q =>
        have := hi r (by rw [hr]; simp)
        simp at h1; exact absurd this h1
    · have := allPending_of hi h4 g1 g2
      simpa [g3] using this
  | cancel r ok => trivial
  | kernel i r j => trivial
  | run i op => trivial

theorem waitsB_of {s : St} {ids : List Nat} {op : Op} (hi : ∀ r, s.reqs r ≠ none → r ∈ ids) (h : waitsB qid s ids op = true) : Waits qid s op := by
  cases op with
  | mgr op =>
    cases op with
    | new f o out => trivial
    | delete b =>
      intro r q h1 h2 h3
      have := allPending_of hi h h1 h2
      simp [onB_of h3] at this
  | io r w b buf =>
    intro r' q h1 h2 h3
    have := allPending_of hi h h1 h2
    simpa [onB_of h3] using this
  | fill buf data => trivial
  | cancel r ok => trivial
  | kernel i r j => trivial
  | run i op => trivial

theorem noConfirmB_of {op : Op} (h : noConfirmB op = true) : NoConfirm op := by
  cases op with
  | cancel r ok => exact (by simpa [noConfirmB] using h : ok = false)
  | _ => trivial

def Op.ids : Op → List Nat
  | .io r _ _ _ => [r]
  | _ => []

theorem queue_reqs {s t : St} {i : Nat} {o : Aio.Op} (h : s.queue i o = some t) : t.reqs = s.reqs := by
  obtain ⟨u, _, g2⟩ := queue_some h
  subst g2; rfl

theorem step_ids {s s' : St} {op : Op} {ids : List Nat} (hi : ∀ r, s.reqs r ≠ none → r ∈ ids) (hs : step qid s op = some s') :
    ∀ r, s'.reqs r ≠ none → r ∈ op.ids ++ ids := by
  have hold : s'.reqs = s.reqs → ∀ r, s'.reqs r ≠ none → r ∈ op.ids ++ ids := by
    intro e r hr
    rw [e] at hr
    exact List.mem_append.2 (.inr (hi r hr))
  cases op with
  | mgr op => simp only [step] at hs; injection hs with hs; subst hs; exact hold rfl
  | fill buf data => simp only [step] at hs; injection hs with hs; subst hs; exact hold rfl
  | io r w b buf =>
    simp only [step] at hs
    split at hs
    · have := queue_reqs hs
      intro r' hr'
      rw [this] at hr'
      by_cases e : r' = r
      · simp [Op.ids, e]
      · simp only [upd_other _ _ e] at hr'
        exact List.mem_append.2 (.inr (hi r' hr'))
    · cases hs
  | cancel r ok =>
    simp only [step] at hs
    split at hs
    · split at hs
      · exact hold (queue_reqs hs)
      · exact hold (queue_reqs hs)
    · cases hs
  | kernel i r j =>
    simp only [step] at hs
    split at hs
    · split at hs
      · injection hs with hs; subst hs
        apply hold
        show (s.byte _ j).reqs = s.reqs
        unfold St.byte
        split <;> rfl
      · cases hs
    · cases hs
  | run i op =>
    cases op with
    | add r => simp [step] at hs
    | cancelW r => simp [step] at hs
    | cancelK r ok => simp [step] at hs
    | post o =>
      simp only [step] at hs
      split at hs
      · exact hold (queue_reqs hs)
      · cases hs
    | wait o =>
      simp only [step] at hs
      split at hs
      · exact hold (queue_reqs hs)
      · cases hs
    | addSig => exact hold (queue_reqs hs)
    | cancelComp r => exact hold (queue_reqs hs)
    | cancelDone => exact hold (queue_reqs hs)
    | kstep k => exact hold (queue_reqs hs)
    | stop => exact hold (queue_reqs hs)

def runB (qid : Nat → Nat) (pB : St → List Nat → Op → Bool) : St → Hist → List Nat → List Op → Option (St × Hist)
  | s, h, _, [] => some (s, h)
  | s, h, ids, op :: ops =>
    if allowedB qid s ids op && pB s ids op then
      match step qid s op with
      | some s' => runB qid pB s' (remember h s op) (op.ids ++ ids) ops
      | none => none
    else none

theorem runB_life {P : St → Op → Prop} {pB : St → List Nat → Op → Bool} (hP : ∀ s ids op, (∀ r, s.reqs r ≠ none → r ∈ ids) → pB s ids op = true → P s op)
    {s s' : St} {h h' : Hist} {ids : List Nat} {ops : List Op}
    (hl : Life qid cfgs P s h) (hi : ∀ r, s.reqs r ≠ none → r ∈ ids) (hr : runB qid pB s h ids ops = some (s', h')) :
    Life qid cfgs P s' h' := by
  induction ops generalizing s h ids with
  | nil =>
    simp only [runB, Option.some.injEq, Prod.mk.injEq] at hr
    rw [← hr.1, ← hr.2]; exact hl
  | cons op ops ih =>
    simp only [runB] at hr
    split at hr
    · rename_i hb
      simp only [Bool.and_eq_true] at hb
      split at hr
      · rename_i s1 hs
        exact ih (Life.next op hl (allowedB_of hi hb.1) (hP _ _ op hi hb.2) hs) (step_ids hi hs) hr
      · cases hr
    · cases hr

/-- Start with empty files, buffers of the given content, and 4 events per queue. -/
def start (cfgs : List (Nat × Bool)) (mem : Nat → List UInt8) : Option St :=
  match Mgr.Manager.create cfgs with
  | .ok m => some (init m (fun _ => Files.emptyFile) mem (fun _ => 4))
  | .error _ => none

theorem witness {P : St → Op → Prop} (pB : St → List Nat → Op → Bool) (hP : ∀ s ids op, (∀ r, s.reqs r ≠ none → r ∈ ids) → pB s ids op = true → P s op)
    (mem : Nat → List UInt8) (ops : List Op) (p : St → Hist → Bool)
    (hp : ((start cfgs mem).bind fun s => (runB qid pB s ⟨[], fun _ => []⟩ [] ops).map fun x => p x.1 x.2) = some true) :
    ∃ s h, Life qid cfgs P s h ∧ p s h = true := by
  cases hs : start cfgs mem with
  | none => rw [hs] at hp; simp at hp
  | some s0 =>
    rw [hs] at hp
    simp only [Option.bind_some] at hp
    cases hr : runB qid pB s0 ⟨[], fun _ => []⟩ [] ops with
    | none => rw [hr] at hp; simp at hp
    | some x =>
      rw [hr] at hp
      simp only [Option.map_some, Option.some.injEq] at hp
      refine ⟨x.1, x.2, ?_, hp⟩
      unfold start at hs
      split at hs
      · rename_i m hm
        injection hs with hs; subst hs
        refine runB_life hP (Life.start hm (fun _ => by decide)) (fun r hr => ?_) hr
        simp [init] at hr
      · cases hs

end Foxxll.AioStore
