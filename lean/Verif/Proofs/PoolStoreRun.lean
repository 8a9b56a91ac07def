import Verif.Spec.PoolStore
import Verif.Proofs.StoreAux
import Verif.Proofs.PoolsAux
/-
Concrete runs of the pools on top of the store.
-/
namespace Foxxll.PoolStore
open Foxxll

/-- The rules, decided; of the other clients only the workers. -/
def okB (qid : Nat → Nat) (own : List Mgr.Bid) (loc : Nat → Nat) (raw : Nat) (s : Sys) (ids : List Nat) : Ev → Bool
  | .call op r => Pool.legalB (s.view qid own loc) op && !ids.contains r
  | .fill blk data => s.p.uidle.contains blk && data.length == raw
  | .write blk bid => Pool.legalB (s.view qid own loc) (.write blk bid [] false)
  | .submit r => !ids.contains r
  | .env (.run _ _ _) => true
  | .env _ => false
  | .cancel => true
  | .cancelP => true

variable {k : Queue.Kind} {qid : Nat → Nat} {cfgs : List (Nat × Bool)} {own : List Mgr.Bid} {loc : Nat → Nat} {raw : Nat}

theorem okB_ok {s : Sys} {ids : List Nat} (hi : ∀ r, s.d.reqs r ≠ none → r ∈ ids) {ev : Ev} (h : okB qid own loc raw s ids ev = true) :
    ev.Ok k qid own loc raw s := by
  have hn : ∀ r, ids.contains r = false → s.d.reqs r = none := by
    intro r hr
    cases hq : s.d.reqs r with
    | none => rfl
    | some q =>
      have := hi r (by rw [hq]; simp)
      simp [this] at hr
  cases ev with
  | call op r =>
    simp only [okB, Bool.and_eq_true, Bool.not_eq_true'] at h
    exact ⟨Pool.legalB_legal h.1, hn r h.2⟩
  | fill blk data =>
    simp only [okB, Bool.and_eq_true, beq_iff_eq, List.contains_iff_mem] at h
    exact h
  | write blk bid =>
    simp only [okB] at h
    exact Pool.legalB_legal h
  | cancel => trivial
  | submit r =>
    simp only [okB, Bool.not_eq_true'] at h
    exact hn r h
  | cancelP => trivial
  | env op =>
    cases op with
    | run i op os => exact ⟨trivial, (fun _ r e => by cases e), trivial⟩
    | _ => cases h

/-- Numbers of requests used by an event. -/
def Ev.uses : Ev → List Nat
  | .call _ r => [r]
  | .submit r => [r]
  | _ => []

def runB (k : Queue.Kind) (qid : Nat → Nat) (own : List Mgr.Bid) (loc : Nat → Nat) (raw : Nat) (pB : Sys → Ev → Bool) (s : Sys) (ids : List Nat) :
    List Ev → Option Sys
  | [] => some s
  | ev :: evs =>
    if okB qid own loc raw s ids ev && pB s ev then
      match s.step k qid own loc ev with
      | some s' => runB k qid own loc raw pB s' (ev.uses ++ ids) evs
      | none => none
    else none

theorem queue_reqs {d d' : Store.St} {i : Nat} {op : Queue.Op} (h : d.queue k i op = some d') : d'.reqs = d.reqs := by
  unfold Store.St.queue at h
  split at h
  · injection h with h; subst h; rfl
  · cases h

theorem run_reqs {d d' : Store.St} {i : Nat} {op : Queue.Op} {os : Nat → Files.Sys} (h : Store.step k qid d (.run i op os) = some d') :
    d'.reqs = d.reqs := by
  cases op with
  | signal => exact queue_reqs h
  | cancelTake => exact queue_reqs h
  | work =>
    simp only [Store.step] at h
    rw [queue_reqs h]
    unfold Store.St.transfer
    split
    · unfold Store.St.serve
      split
      · rfl
      · split
        · split <;> rfl
        · split <;> rfl
    · rfl
  | _ => cases h

theorem tryCancel_reqs {s : Sys} {i : Nat} {d : Store.St} {b : Bool} (h : s.tryCancel k qid i = some (d, b)) : d.reqs = s.d.reqs := by
  unfold Sys.tryCancel at h
  split at h
  · simp only [Option.some.injEq, Prod.mk.injEq] at h; rw [← h.1]
  · split at h
    · cases h
    · split at h
      · cases h
      · rename_i d' hd
        simp only [Option.some.injEq, Prod.mk.injEq] at h
        rw [← h.1]
        simp only [Store.step] at hd
        split at hd
        · exact queue_reqs hd
        · cases hd

theorem settle_ids {s s' : Sys} {ids : List Nat} {p' : Pool.St V} {r : Nat} (hi : ∀ r, s.d.reqs r ≠ none → r ∈ ids)
    (h : s.settle k qid own loc p' r = some s') : ∀ x, s'.d.reqs x ≠ none → x ∈ [r] ++ ids := by
  intro x hx
  unfold Sys.settle at h
  split at h
  · injection h with h; subst h; exact List.mem_append_right _ (hi x hx)
  · split at h
    · cases h
    · rename_i op hop
      split at h
      · cases h
      · rename_i d hd
        injection h with h; subst h
        unfold ioOf at hop
        split at hop
        · cases hop
        · injection hop with hop; subst hop
          simp only [Store.step] at hd
          split at hd
          · have e := queue_reqs hd
            have hx' : d.reqs x ≠ none := hx
            rw [e] at hx'
            by_cases hxr : x = r
            · subst hxr; simp
            · refine List.mem_append_right _ (hi x ?_)
              change Store.upd s.d.reqs r _ x ≠ none at hx'
              rw [Store.upd_other _ _ hxr] at hx'; exact hx'
          · cases hd

theorem step_ids {s s' : Sys} {ids : List Nat} {ev : Ev} (hi : ∀ r, s.d.reqs r ≠ none → r ∈ ids) (hb : okB qid own loc raw s ids ev = true)
    (h : s.step k qid own loc ev = some s') : ∀ x, s'.d.reqs x ≠ none → x ∈ ev.uses ++ ids := by
  cases ev with
  | call op r =>
    simp only [Sys.step] at h
    split at h
    · split at h
      · exact settle_ids hi h
      · cases h
    · cases h
  | fill blk data =>
    simp only [Sys.step, Store.step] at h
    split at h
    · injection h with h; subst h; exact hi
    · cases h
  | write blk bid =>
    simp only [Sys.step] at h
    split at h
    · injection h with h; subst h; exact hi
    · cases h
  | cancel =>
    simp only [Sys.step] at h
    split at h
    · split at h
      · rename_i ht
        injection h with h; subst h
        intro x hx
        change _ at hx
        rw [tryCancel_reqs ht] at hx; exact hi x hx
      · cases h
    · cases h
  | submit r =>
    simp only [Sys.step] at h
    split at h
    · split at h
      · exact settle_ids hi h
      · cases h
    · cases h
  | cancelP =>
    simp only [Sys.step] at h
    split at h
    · split at h
      · rename_i ht
        split at h
        · injection h with h; subst h
          intro x hx
          change _ at hx
          rw [tryCancel_reqs ht] at hx; exact hi x hx
        · cases h
      · rename_i ht
        injection h with h; subst h
        intro x hx
        change _ at hx
        rw [tryCancel_reqs ht] at hx; exact hi x hx
      · cases h
    · cases h
  | env op =>
    cases op with
    | run i op os =>
      simp only [Sys.step] at h
      split at h
      · rename_i d hd
        injection h with h; subst h
        intro x hx
        change d.reqs x ≠ none at hx
        rw [run_reqs hd] at hx; exact hi x hx
      · cases h
    | _ => cases hb

theorem runB_run {P : Sys → Ev → Prop} {pB : Sys → Ev → Bool} (hP : ∀ s ev, pB s ev = true → P s ev) {s s' : Sys} {ids : List Nat} {evs : List Ev}
    (hr : Run k qid cfgs own loc raw P s) (hi : ∀ r, s.d.reqs r ≠ none → r ∈ ids) (h : runB k qid own loc raw pB s ids evs = some s') :
    Run k qid cfgs own loc raw P s' := by
  induction evs generalizing s ids with
  | nil => simp only [runB, Option.some.injEq] at h; rw [← h]; exact hr
  | cons ev evs ih =>
    simp only [runB] at h
    split at h
    · rename_i hb
      simp only [Bool.and_eq_true] at hb
      split at h
      · rename_i s1 hs
        exact ih (.next ev hr (okB_ok hi hb.1) (hP _ _ hb.2) hs) (step_ids hi hb.1 hs) h
      · cases h
    · cases h

/-- The store with two allocated blocks of two bytes. -/
def base (cfgs : List (Nat × Bool)) : Option Store.St :=
  (Store.start cfgs (fun _ => [0, 0])).bind fun s => Store.step .twoQ id s (.mgr (.new (fun _ => 0) 0 [⟨.null, 0, 2, 2⟩, ⟨.null, 0, 2, 2⟩]))

end Foxxll.PoolStore
