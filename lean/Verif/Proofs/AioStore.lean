import Verif.Proofs.Linuxaio
import Verif.Proofs.StoreServe
import Verif.Proofs.StoreGrow
import Verif.Spec.AioStore
/-
What a step of the linuxaio queue does to the requests, as far as the data are concerned.
-/
namespace Foxxll.Aio

/-- The kernel has not got the request. -/
def Untouched (s : St) (x : Nat) : Prop := x ∉ s.subm ∨ x ∈ s.waiting ∨ x ∈ pHeld s.post ∨ x ∈ s.canc ∨ (x, false) ∈ s.comp

/-- The kernel has reported the request. -/
def Reaped (s : St) (x : Nat) : Prop := x ∈ pEvs s.post ∨ x ∈ wEvs s.wt ∨ (x, true) ∈ s.comp

/-- What the kernel reports in a step. -/
def Op.kernel : Op → Kernel
  | .post o | .wait o => o
  | _ => {}

structure Frame (o : Kernel) (s s' : St) : Prop where
  unt : ∀ x, Untouched s' x → Untouched s x
  rea : ∀ x, Reaped s' x → Reaped s x ∨ (x ∈ o.evs ∧ (x ∈ o.bad → x ∈ s'.kerr))
  kerr : ∀ x ∈ s.kerr, x ∈ s'.kerr
  comp : ∀ c ∈ s.comp, c ∈ s'.comp

theorem frame_same {o : Kernel} {s s' : St} (h1 : s'.subm = s.subm) (h2 : s'.waiting = s.waiting) (h3 : pHeld s'.post = pHeld s.post) (h4 : s'.canc = s.canc)
    (h5 : s'.comp = s.comp) (h6 : pEvs s'.post = pEvs s.post) (h7 : wEvs s'.wt = wEvs s.wt) (h8 : s'.kerr = s.kerr) : Frame o s s' := by
  constructor
  · intro x; unfold Untouched; rw [h1, h2, h3, h4, h5]; exact id
  · intro x; unfold Reaped; rw [h5, h6, h7]; exact Or.inl
  · rw [h8]; exact fun _ h => h
  · rw [h5]; exact fun _ h => h

theorem frame_post {s s' : St} {o : Kernel} (hs : postStep s o = .ok s') : Frame o s s' ∧ s'.subm = s.subm := by
  unfold postStep at hs
  split at hs
  all_goals rename_i hpc
  · split at hs
    · cases hs
    injection hs with hs; subst hs
    exact ⟨frame_same rfl rfl (by simp [hpc, pHeld]) rfl rfl (by simp [hpc, pEvs]) rfl rfl, rfl⟩
  · injection hs with hs; subst hs
    split <;> exact ⟨frame_same rfl rfl (by simp [hpc, pHeld]) rfl rfl (by simp [hpc, pEvs]) rfl rfl, rfl⟩
  · split at hs
    · cases hs
    split at hs
    · injection hs with hs; subst hs
      exact ⟨frame_same rfl rfl (by simp [hpc, pHeld]) rfl rfl (by simp [hpc, pEvs]) rfl rfl, rfl⟩
    · rename_i r q hq
      injection hs with hs; subst hs
      refine ⟨⟨?_, ?_, fun _ h => h, fun _ h => h⟩, rfl⟩
      · intro x h
        simp only [Untouched, pHeld, hq, hpc, List.mem_cons, List.mem_nil_iff, or_false] at h ⊢
        rcases h with h | h | h | h | h
        · exact .inl h
        · exact .inr (.inl (.inr h))
        · exact .inr (.inl (.inl h))
        · exact .inr (.inr (.inr (.inl h)))
        · exact .inr (.inr (.inr (.inr h)))
      · intro x h
        left
        simpa only [Reaped, pEvs, hpc] using h
  · injection hs with hs; subst hs
    exact ⟨frame_same rfl rfl (by simp [hpc, pHeld]) rfl rfl (by simp [hpc, pEvs]) rfl rfl, rfl⟩
  · split at hs
    all_goals
      injection hs with hs; subst hs
      exact ⟨frame_same rfl rfl (by simp [hpc, pHeld]) rfl rfl (by simp [hpc, pEvs]) rfl rfl, rfl⟩
  · split at hs
    · injection hs with hs; subst hs
      exact ⟨frame_same rfl rfl (by simp [hpc, pHeld]) rfl rfl (by simp [hpc, pEvs]) rfl rfl, rfl⟩
    · split at hs
      · cases hs
      · rename_i r q hq
        injection hs with hs; subst hs
        refine ⟨⟨?_, ?_, fun _ h => h, fun _ h => h⟩, rfl⟩
        · intro x h
          simp only [Untouched, pHeld, hq, hpc, List.mem_cons, List.mem_append, List.mem_nil_iff, or_false] at h ⊢
          rcases h with h | h | (h | h) | h | h
          · exact .inl h
          · exact .inr (.inl (.inr h))
          · exact .inr (.inr (.inl h))
          · exact .inr (.inl (.inl h))
          · exact .inr (.inr (.inr (.inl h)))
          · exact .inr (.inr (.inr (.inr h)))
        · intro x h
          left
          simpa only [Reaped, pEvs, hpc] using h
  · injection hs with hs; subst hs
    exact ⟨frame_same rfl rfl (by simp [hpc, pHeld]) rfl rfl (by simp [hpc, pEvs]) rfl rfl, rfl⟩
  · split at hs
    · cases hs
    injection hs with hs; subst hs
    exact ⟨frame_same rfl rfl (by simp [hpc, pHeld]) rfl rfl (by simp [hpc, pEvs]) rfl rfl, rfl⟩
  · rename_i cbs
    split at hs
    · cases hs
    split at hs
    · injection hs with hs; subst hs
      exact ⟨frame_same rfl rfl (by simp [hpc, pHeld]) rfl rfl (by simp [hpc, pEvs]) rfl rfl, rfl⟩
    · split at hs
      · injection hs with hs; subst hs
        refine ⟨⟨?_, ?_, fun _ h => h, fun _ h => h⟩, rfl⟩
        · intro x h
          simp only [Untouched, pHeld, hpc] at h ⊢
          rcases h with h | h | h | h
          · exact .inl h
          · exact .inr (.inl h)
          · exact .inr (.inr (.inl (List.mem_of_mem_drop h)))
          · exact .inr (.inr (.inr h))
        · intro x h
          left
          simpa only [Reaped, pEvs, hpc] using h
      · cases hs
  · injection hs with hs; subst hs
    rename_i k rest
    have := afterSig_held rest
    exact ⟨frame_same rfl rfl (by simp only [hpc, pHeld]; exact this.1) rfl rfl (by simp only [hpc, pEvs]; exact this.2.1) rfl rfl, rfl⟩
  · split at hs
    · cases hs
    split at hs
    · split at hs
      · injection hs with hs; subst hs
        exact ⟨frame_same rfl rfl (by simp [hpc, pHeld]) rfl rfl (by simp [hpc, pEvs]) rfl rfl, rfl⟩
      · injection hs with hs; subst hs
        refine ⟨⟨?_, ?_, fun _ h => List.mem_append.2 (.inl h), fun _ h => h⟩, rfl⟩
        · intro x h
          simpa only [Untouched, pHeld, hpc] using h
        · intro x h
          simp only [Reaped, pEvs, hpc] at h ⊢
          rcases h with h | h
          · exact .inr ⟨h, fun hb => List.mem_append.2 (.inr (List.mem_filter.2 ⟨hb, by simpa using h⟩))⟩
          · exact .inl (.inr h)
    · cases hs
  · injection hs with hs; subst hs
    exact ⟨frame_same rfl rfl (by simp [hpc, pHeld]) rfl rfl (by simp [hpc, pEvs]) rfl rfl, rfl⟩
  · injection hs with hs; subst hs
    exact ⟨frame_same rfl rfl (by simp [hpc, pHeld]) rfl rfl (by simp [hpc, pEvs]) rfl rfl, rfl⟩
  · split at hs
    · rename_i hco
      obtain ⟨_, rfl⟩ := complete_ok hco
      injection hs with hs; subst hs
      refine ⟨⟨?_, ?_, fun _ h => h, fun _ h => List.mem_append.2 (.inl h)⟩, rfl⟩
      · intro x h
        simp only [Untouched, pHeld, hpc, List.mem_append, List.mem_singleton, Prod.mk.injEq, Bool.false_eq_true, and_false, or_false] at h ⊢
        exact h
      · intro x h
        simp only [Reaped, pEvs, hpc, List.mem_append, List.mem_nil_iff, or_false, Prod.mk.injEq, and_true, List.mem_cons] at h ⊢
        left
        rcases h with h | h | h | h
        · exact .inl (.inr h)
        · exact .inr (.inl h)
        · exact .inr (.inr h)
        · exact .inl (.inl h)
    · rename_i hne
      exact absurd hs (hne _)
  · split at hs
    · cases hs
    injection hs with hs; subst hs
    exact ⟨frame_same rfl rfl (by simp [hpc, pHeld]) rfl rfl (by simp [hpc, pEvs]) rfl rfl, rfl⟩
  · injection hs with hs; subst hs
    exact ⟨frame_same rfl rfl (by simp [hpc, pHeld]) rfl rfl (by simp [hpc, pEvs]) rfl rfl, rfl⟩
  · cases hs

theorem frame_wait {s s' : St} {o : Kernel} (hs : waitStep s o = .ok s') : Frame o s s' ∧ s'.subm = s.subm := by
  unfold waitStep at hs
  split at hs
  all_goals rename_i hpc
  · split at hs
    · cases hs
    injection hs with hs; subst hs
    exact ⟨frame_same rfl rfl rfl rfl rfl rfl (by simp [hpc, wEvs]) rfl, rfl⟩
  · injection hs with hs; subst hs
    refine ⟨frame_same rfl rfl rfl rfl rfl rfl ?_ rfl, rfl⟩
    have : ∀ c : Prop, [Decidable c] → wEvs (if c then .exit else .reap) = [] := by intro c _; by_cases h : c <;> simp [h, wEvs]
    rw [hpc]; exact this _
  · split at hs
    · cases hs
    split at hs
    · injection hs with hs; subst hs
      refine ⟨⟨?_, ?_, fun _ h => List.mem_append.2 (.inl h), fun _ h => h⟩, rfl⟩
      · intro x h
        simpa only [Untouched] using h
      · intro x h
        simp only [Reaped, wEvs, hpc] at h ⊢
        rcases h with h | h | h
        · exact .inl (.inl h)
        · exact .inr ⟨h, fun hb => List.mem_append.2 (.inr (List.mem_filter.2 ⟨hb, by simpa using h⟩))⟩
        · exact .inl (.inr (.inr h))
    · cases hs
  · injection hs with hs; subst hs
    exact ⟨frame_same rfl rfl rfl rfl rfl rfl (by simp [hpc, wEvs]) rfl, rfl⟩
  · injection hs with hs; subst hs
    exact ⟨frame_same rfl rfl rfl rfl rfl rfl (by simp [hpc, wEvs]) rfl, rfl⟩
  · injection hs with hs; subst hs
    exact ⟨frame_same rfl rfl rfl rfl rfl rfl (by simp [hpc, wEvs]) rfl, rfl⟩
  · split at hs
    · rename_i hco
      obtain ⟨_, rfl⟩ := complete_ok hco
      injection hs with hs; subst hs
      refine ⟨⟨?_, ?_, fun _ h => h, fun _ h => List.mem_append.2 (.inl h)⟩, rfl⟩
      · intro x h
        simp only [Untouched, List.mem_append, List.mem_singleton, Prod.mk.injEq, Bool.false_eq_true, and_false, or_false] at h ⊢
        exact h
      · intro x h
        simp only [Reaped, wEvs, hpc, List.mem_append, List.mem_nil_iff, or_false, Prod.mk.injEq, and_true, List.mem_cons] at h ⊢
        left
        rcases h with h | h | h | h
        · exact .inl h
        · exact .inr (.inl (.inr h))
        · exact .inr (.inr h)
        · exact .inr (.inl (.inl h))
    · rename_i hne
      exact absurd hs (hne _)
  · split at hs
    · cases hs
    injection hs with hs; subst hs
    exact ⟨frame_same rfl rfl rfl rfl rfl rfl (by simp [hpc, wEvs]) rfl, rfl⟩
  · injection hs with hs; subst hs
    exact ⟨frame_same rfl rfl rfl rfl rfl rfl (by simp [hpc, wEvs]) rfl, rfl⟩
  · cases hs

/-- Requests a step adds. -/
def Op.adds : Op → List Nat
  | .add r => [r]
  | _ => []

theorem frame_step {s s' : St} {op : Op} (hi : Inv s) (hp : NoConfirm s op) (hs : step s op = .ok s') :
    Frame op.kernel s s' ∧ s'.subm = s.subm ++ op.adds := by
  have same : ∀ {t : St}, Frame op.kernel s t ∧ t.subm = s.subm → op.adds = [] → Frame op.kernel s t ∧ t.subm = s.subm ++ op.adds := by
    intro t h e; rw [e, List.append_nil]; exact h
  cases op with
  | post o => exact same (frame_post hs) rfl
  | wait o => exact same (frame_wait hs) rfl
  | add r =>
    simp only [step] at hs
    split at hs
    · cases hs
    split at hs
    · cases hs
    rename_i hcond
    simp only [Bool.or_eq_true, decide_eq_true_eq, not_or] at hcond
    injection hs with hs; subst hs
    refine ⟨⟨?_, fun x h => .inl h, fun _ h => h, fun _ h => h⟩, rfl⟩
    intro x h
    simp only [Untouched, List.mem_append, List.mem_singleton, not_or] at h ⊢
    rcases h with h | (h | h) | h
    · exact .inl h.1
    · exact .inr (.inl h)
    · subst h; exact .inl hcond.2
    · exact .inr (.inr h)
  | addSig =>
    simp only [step] at hs
    split at hs
    · cases hs
    injection hs with hs; subst hs
    exact same ⟨frame_same rfl rfl rfl rfl rfl rfl rfl rfl, rfl⟩ rfl
  | cancelW r =>
    simp only [step] at hs
    split at hs
    · cases hs
    split at hs
    · cases hs
    rename_i hcond
    simp only [Bool.or_eq_true, Bool.not_eq_true', decide_eq_false_iff_not, not_or, Decidable.not_not] at hcond
    injection hs with hs; subst hs
    refine same ⟨⟨?_, fun x h => .inl h, fun _ h => h, fun _ h => h⟩, rfl⟩ rfl
    intro x h
    simp only [Untouched, List.mem_append, List.mem_singleton] at h ⊢
    rcases h with h | h | h | (h | h) | h
    · exact .inl h
    · exact .inr (.inl (List.mem_of_mem_erase h))
    · exact .inr (.inr (.inl h))
    · exact .inr (.inr (.inr (.inl h)))
    · subst h; exact .inr (.inl hcond.2)
    · exact .inr (.inr (.inr (.inr h)))
  | cancelComp r =>
    simp only [step] at hs
    split at hs
    · rename_i hm
      split at hs
      · rename_i s1 hco
        obtain ⟨_, rfl⟩ := complete_ok hco
        injection hs with hs; subst hs
        refine same ⟨⟨?_, ?_, fun _ h => h, fun _ h => List.mem_append.2 (.inl h)⟩, rfl⟩ rfl
        · intro x h
          simp only [Untouched, List.mem_append, List.mem_singleton, Prod.mk.injEq, and_true] at h ⊢
          rcases h with h | h | h | h | h | h
          · exact .inl h
          · exact .inr (.inl h)
          · exact .inr (.inr (.inl h))
          · exact .inr (.inr (.inr (.inl (List.mem_of_mem_erase h))))
          · exact .inr (.inr (.inr (.inr h)))
          · subst h; exact .inr (.inr (.inr (.inl hm)))
        · intro x h
          left
          simpa only [Reaped, List.mem_append, List.mem_singleton, Prod.mk.injEq, Bool.true_eq_false, and_false, or_false] using h
      · rename_i hne
        exact absurd hs (hne _)
    · cases hs
  | cancelDone =>
    simp only [step] at hs
    split at hs
    · cases hs
    injection hs with hs; subst hs
    exact same ⟨frame_same rfl rfl rfl rfl rfl rfl rfl rfl, rfl⟩ rfl
  | cancelK r ok =>
    simp only [step] at hs
    split at hs
    · cases hs
    split at hs
    · cases hs
    split at hs
    · rename_i hok; subst hok; exact absurd rfl (hp r)
    · injection hs with hs; subst hs; exact same ⟨frame_same rfl rfl rfl rfl rfl rfl rfl rfl, rfl⟩ rfl
  | kstep i => simp [step, kStep, hi.kcan] at hs
  | stop =>
    refine same ?_ rfl
    simp only [step, stopStep] at hs
    split at hs
    · injection hs with hs; subst hs; exact ⟨frame_same rfl rfl rfl rfl rfl rfl rfl rfl, rfl⟩
    · injection hs with hs; subst hs; exact ⟨frame_same rfl rfl rfl rfl rfl rfl rfl rfl, rfl⟩
    · split at hs
      · injection hs with hs; subst hs; exact ⟨frame_same rfl rfl rfl rfl rfl rfl rfl rfl, rfl⟩
      · cases hs
    · injection hs with hs; subst hs; exact ⟨frame_same rfl rfl rfl rfl rfl rfl rfl rfl, rfl⟩
    · split at hs
      · injection hs with hs; subst hs; exact ⟨frame_same rfl rfl rfl rfl rfl rfl rfl rfl, rfl⟩
      · cases hs
    · cases hs

/-- A request in flight is in no other place. -/
theorem infl_only {s : St} (hi : Inv s) {x : Nat} (h : x ∈ s.infl) : ¬ Untouched s x ∧ ¬ Reaped s x ∧ x ∉ s.comp.map (·.1) := by
  have hc := hi.cons x
  have h1 : s.subm.count x ≤ 1 := List.nodup_iff_count.1 hi.nd x
  have h2 := List.count_pos_iff.2 h
  simp only [places] at hc
  have hn : ∀ {l : List Nat}, l.count x = 0 → x ∉ l := fun h => List.count_eq_zero.1 h
  have hcomp : x ∉ s.comp.map (·.1) := hn (by omega)
  have hcb : ∀ b, (x, b) ∉ s.comp := fun b h => hcomp (List.mem_map.2 ⟨_, h, rfl⟩)
  refine ⟨?_, ?_, hcomp⟩
  · rintro (h | h | h | h | h)
    · exact h (List.count_pos_iff.1 (by omega))
    · exact hn (l := s.waiting) (by omega) h
    · exact hn (l := pHeld s.post) (by omega) h
    · exact hn (l := s.canc) (by omega) h
    · exact hcb _ h
  · rintro (h | h | h)
    · exact hn (l := pEvs s.post) (by omega) h
    · exact hn (l := wEvs s.wt) (by omega) h
    · exact hcb _ h

end Foxxll.Aio
