import Verif.Proofs.PoolStoreEnv
import Verif.Proofs.PoolStoreRun
/-
All runs.
-/
namespace Foxxll.PoolStore
open Foxxll

variable {k : Queue.Kind} {qid : Nat → Nat} {cfgs : List (Nat × Bool)} {own : List Mgr.Bid} {loc : Nat → Nat} {raw : Nat}

theorem store_failed {d d' : Store.St} {op : Store.Op} (h : Store.step k qid d op = some d') : ∀ r ∈ d.failed, r ∈ d'.failed := by
  have hqueue : ∀ {c : Store.St} {i : Nat} {op : Queue.Op}, c.queue k i op = some d' → d'.failed = c.failed :=
    fun h => (Store.queue_failed h).1
  cases op with
  | mgr op => simp only [Store.step] at h; injection h with h; subst h; exact fun _ h => h
  | fill buf data => simp only [Store.step] at h; injection h with h; subst h; exact fun _ h => h
  | io r w b buf =>
    simp only [Store.step] at h
    split at h
    · rw [hqueue h]; exact fun _ h => h
    · cases h
  | cancel r => rw [(cancel_frame h).2.2.2.2.1]; exact fun _ h => h
  | run i qop os =>
    cases qop with
    | signal => rw [hqueue h]; exact fun _ h => h
    | cancelTake => rw [hqueue h]; exact fun _ h => h
    | work =>
      simp only [Store.step] at h
      rw [hqueue h]
      intro r hr
      unfold Store.St.transfer
      split
      · unfold Store.St.serve
        split
        · exact hr
        · split
          · split
            · exact hr
            · exact List.mem_cons_of_mem _ hr
            · exact hr
          · split
            · exact hr
            · exact List.mem_cons_of_mem _ hr
            · exact hr
      · exact hr
    | _ => cases h

theorem settle_mono {s s' : Sys} {p' : Pool.St V} {r : Nat} (h : s.settle k qid own loc p' r = some s')
    (hq : p'.nextReq = s.p.nextReq ∨ ∃ l x, p'.q = l ++ [x] ∧ x.id = s.p.nextReq ∧ p'.nextReq = s.p.nextReq + 1) (hf : s'.Fine) : s.Fine := by
  rcases hq with h1 | ⟨l, x, h1, h2, h3⟩
  · rw [settle_same h1 h] at hf
    intro i hi
    exact hf i (by show i < p'.nextReq; omega)
  · obtain ⟨b, d', _, g2, g3⟩ := settle_new h3 h1 h
    rw [g3] at hf
    intro i hi hc
    have := hf i (by show i < p'.nextReq; omega)
    have e : Store.upd s.rid x.id r i = s.rid i := Store.upd_other _ _ (by omega)
    change Store.upd s.rid x.id r i ∉ d'.failed at this
    rw [e] at this
    exact this (store_failed g2 _ hc)

theorem tryCancel_failed {s : Sys} {i : Nat} {d : Store.St} {b : Bool} (h : s.tryCancel k qid i = some (d, b)) : d.failed = s.d.failed := by
  rcases tryCancel_some h with ⟨_, h2, _⟩ | ⟨_, _, _, h3, _⟩
  · rw [h2]
  · exact (cancel_frame h3).2.2.2.2.1

/-- Failures stay. -/
theorem step_mono {s s' : Sys} {ev : Ev} (h : s.step k qid own loc ev = some s') (hf : s'.Fine) : s.Fine := by
  cases ev with
  | call op r =>
    simp only [Sys.step] at h
    split at h
    · rename_i hc
      simp only [Bool.and_eq_true, decide_eq_true_eq] at hc
      split at h
      · rename_i p' hp
        have hS := simple_shape hc.2 hp
        refine settle_mono h ?_ hf
        rcases hS.req with ⟨_, h2⟩ | ⟨b, blk, h1, h2, _⟩
        · exact .inl h2
        · exact .inr ⟨_, _, h1, rfl, h2⟩
      · cases h
    · cases h
  | fill blk data =>
    simp only [Sys.step] at h
    split at h
    · split at h
      · rename_i d hd
        injection h with h; subst h
        intro i hi hc
        exact hf i hi (store_failed hd _ hc)
      · cases h
    · cases h
  | write blk bid =>
    simp only [Sys.step] at h
    split at h
    · injection h with h; subst h; exact hf
    · cases h
  | cancel =>
    simp only [Sys.step] at h
    split at h
    · split at h
      · rename_i d b ht
        injection h with h; subst h
        intro i hi hc
        exact hf i hi (by rw [tryCancel_failed ht]; exact hc)
      · cases h
    · cases h
  | submit r =>
    simp only [Sys.step] at h
    split at h
    · split at h
      · rename_i p' hp
        have hW := write_wrote hp
        exact settle_mono h (.inr ⟨_, _, hW.q, rfl, hW.next⟩) hf
      · cases h
    · cases h
  | cancelP =>
    simp only [Sys.step] at h
    split at h
    · split at h
      · rename_i d ht
        split at h
        · rename_i p' hp
          injection h with h; subst h
          have hn : p'.nextReq = s.p.nextReq := by
            simp only [Pool.step] at hp
            repeat' split at hp
            all_goals cases hp
            rfl
          intro i hi hc
          exact hf i (by show i < p'.nextReq; omega) (by rw [tryCancel_failed ht]; exact hc)
        · cases h
      · rename_i d ht
        injection h with h; subst h
        intro i hi hc
        exact hf i hi (by rw [tryCancel_failed ht]; exact hc)
      · cases h
    · cases h
  | env op =>
    simp only [Sys.step] at h
    split at h
    · rename_i d hd
      injection h with h; subst h
      intro i hi hc
      exact hf i hi (store_failed hd _ hc)
    · cases h

theorem run_sim {s : Sys} (hr : Run k qid cfgs own loc raw (Calm k qid own loc) s) (hf : s.Fine) : ∃ h, Sim k qid cfgs own loc raw s h := by
  induction hr with
  | @start d h nw np rid hl hown hnd hinj hlen hpen =>
    have hv : Sys.view qid own loc (init own loc nw np d rid) = Pool.init nw np (fun j => d.mem (loc j)) (content own d) := rfl
    refine ⟨h, hl, hown, hnd, hinj, hlen, ?_, ?_, ?_, ?_, ?_, ?_, ?_, ?_, trivial, ?_⟩
    · rw [hv]; exact .start _ _ _ _
    · rw [hv]; intro e he; cases he
    · intro i j hi; exact absurd hi (Nat.not_lt_zero _)
    · intro i hi; exact absurd hi (Nat.not_lt_zero _)
    · rw [hv]; intro x hx; cases hx
    · rw [hv]; exact .nil
    · rw [hv]; intro x hx; cases hx
    · intro r q h1 h2; exact .inr (hpen r q h1 h2)
    · intro _ _ _ _ e; cases e
  | @next s s' ev hr hok hP hs ih =>
    obtain ⟨h, I⟩ := ih (step_mono hs hf)
    cases ev with
    | call op r => exact I.stepCall hok.1 hok.2 hs
    | fill blk data => exact I.stepFill hok.1 hok.2 hs
    | write blk bid => exact I.stepWrite hok hs
    | cancel => exact I.stepCancel hP hs
    | submit r => exact I.stepSubmit hok hP hs
    | cancelP => exact I.stepCancelP hP hs
    | env op => exact I.stepEnv hok.1 hok.2.1 hok.2.2 hs hf

end Foxxll.PoolStore
