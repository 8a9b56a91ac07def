import Verif.Spec.NrefCheck
import Verif.Proofs.LifetimeStep
/-
Lemmas for property C151.
-/
set_option linter.unusedSimpArgs false
set_option linter.unusedVariables false
namespace Foxxll.NrefCheck
open Foxxll.Life

theorem checks_thr {s : St} {t r : Nat} {b : Bool} (h : checks s t = some (b, r)) :
    (b = false ∧ s.thr t = .serve r) ∨ (b = true ∧ s.thr t = .comp r .setDone .worker) := by
  unfold checks at h
  split at h <;> simp_all

theorem checks_loc {fo : Nat → Nat} {s : St} {g : Nat → Stg} (i : I fo s g) {t r : Nat} {b : Bool} (h : checks s t = some (b, r)) :
    .loc t r ∈ s.ptrs ∧ r ∈ s.ids ∧ g r = .own t := by
  have ho : owned (s.thr t) = some r ∧ localOf (s.thr t) = some r := by
    rcases checks_thr h with ⟨_, h⟩ | ⟨_, h⟩ <;> rw [h] <;> exact ⟨rfl, rfl⟩
  exact ⟨(i.b.lc t r).2 ho.2, (i.b.ow t r).1 ho.1⟩

/-- The counter is below two exactly if the worker is alone. -/
theorem refs_alone {s : St} (a : A s) {t r : Nat} (h : .loc t r ∈ s.ptrs) : (s.reqs r).refs < 2 ↔ Alone s t r := by
  constructor
  · intro hlt p hp hpr
    apply Classical.byContradiction
    intro hne
    have h2 := a.two hp h hne hpr
    rw [hpr] at h2
    omega
  · intro hal
    have hk : r ∈ s.ids := a.known _ h
    rw [a.cnt r hk]
    have h1 := a.one (.loc t r) rfl
    have : s.ptrs.countP (fun h => h.req == r) ≤ s.ptrs.count (.loc t r) := by
      rw [List.count]
      apply List.countP_mono_left
      intro x hx hr
      have := hal x hx (by simpa using hr)
      simp [this]
    omega

theorem mem_rmPtr {s s' : St} {h p : Holder} (hs : s.rmPtr h = .ok s') (hp : p ∈ s'.ptrs) : p ∈ s.ptrs := by
  unfold St.rmPtr at hs
  split at hs
  · split at hs
    · cases hs
    · injection hs with hs; subst hs; exact List.mem_of_mem_erase hp
  · injection hs with hs; subst hs; exact List.mem_of_mem_erase hp

/-- A new reference to a request comes from another one, which is not that of a worker serving the request. -/
theorem new_ptr {fo : Nat → Nat} {s s' : St} {g : Nat → Stg} (i : I fo s g) {op : Op} (hs : step s op = .ok s') {t r : Nat} {b : Bool} (hc : checks s t = some (b, r))
    {h : Holder} (hh : h ∈ s'.ptrs) (hr : h.req = r) : h ∈ s.ptrs ∨ ∃ h' ∈ s.ptrs, h'.req = r ∧ h' ≠ .loc t r := by
  have ⟨hl, hk, hg⟩ := checks_loc i hc
  cases op with
  | submit t' r' f aio refused =>
    simp only [step] at hs
    split at hs
    · rename_i hn
      unfold submit at hs
      split at hs
      · simp only at hs
        have hne : ∀ p : Holder, p.req = r → p.req ≠ r' := by
          intro p hp he
          exact hn.2 (he ▸ hp ▸ hk)
        split at hs
        · have := mem_rmPtr hs hh
          rcases List.mem_cons.1 this with e | e
          · subst e; exact absurd rfl (hne _ hr)
          · exact .inl e
        · injection hs with hs; subst hs
          rcases List.mem_cons.1 hh with e | e
          · subst e; exact absurd rfl (hne _ hr)
          · rcases List.mem_cons.1 e with e | e
            · subst e; exact absurd rfl (hne _ hr)
            · exact .inl e
      · cases hs
    · cases hs
  | copy t1 t2 r' =>
    simp only [step] at hs
    split at hs
    · rename_i hn
      injection hs with hs; subst hs
      rcases List.mem_cons.1 hh with e | e
      · subst e; exact .inr ⟨_, hn.2, hr, by simp⟩
      · exact .inl e
    · cases hs
  | drop t1 r' =>
    simp only [step] at hs
    split at hs
    · exact .inl (mem_rmPtr hs hh)
    · cases hs
  | wait t1 r' =>
    simp only [step, St.use] at hs
    repeat' split at hs
    all_goals first | (cases hs; done) | (injection hs with hs; subst hs; exact .inl hh)
  | poll t1 r' b =>
    simp only [step, St.use] at hs
    repeat' split at hs
    all_goals first | (cases hs; done) | (injection hs with hs; subst hs; exact .inl hh)
  | ioType t1 r' =>
    simp only [step, St.use, St.file] at hs
    repeat' split at hs
    all_goals first | (cases hs; done) | (injection hs with hs; subst hs; exact .inl hh)
  | cancel t1 r' =>
    simp only [step, St.use] at hs
    repeat' split at hs
    all_goals first | (cases hs; done) | (injection hs with hs; subst hs; exact .inl hh)
  | take t1 r' =>
    simp only [step] at hs
    split at hs
    · rename_i hn
      unfold take at hs
      split at hs
      · rename_i s1 h1
        injection hs with hs; subst hs
        have := mem_rmPtr h1 hh
        rcases List.mem_cons.1 this with e | e
        · subst e; exact .inr ⟨_, hn.2, hr, by simp⟩
        · exact .inl e
      · rename_i h1; exact absurd hs (by intro e; exact h1 _ e)
    · cases hs
  | event t1 r' =>
    simp only [step] at hs
    split at hs
    · injection hs with hs; subst hs; exact .inl hh
    · cases hs
  | delFile f =>
    simp only [step] at hs
    split at hs
    · injection hs with hs; subst hs; exact .inl hh
    · cases hs
  | work t1 =>
    simp only [step] at hs
    unfold work at hs
    split at hs
    · cases hs
    · simp only [St.use, St.file] at hs
      repeat' split at hs
      all_goals first | (cases hs; done) | (injection hs with hs; subst hs; exact .inl hh)
    · rename_i r' hp
      simp only [St.use] at hs
      split at hs
      · injection hs with hs; subst hs
        rcases List.mem_cons.1 hh with e | e
        · subst e
          refine .inr ⟨.loc t1 r', (i.b.lc t1 r').2 (by rw [hp]; rfl), hr, ?_⟩
          intro e
          injection e with e1 e2
          subst e1
          rcases checks_thr hc with ⟨_, h⟩ | ⟨_, h⟩ <;> rw [h] at hp <;> cases hp
        · exact .inl e
      · cases hs
    · rename_i r' k w hp
      simp only [St.use] at hs
      split at hs
      · unfold compStep at hs
        simp only [St.file] at hs
        repeat' split at hs
        all_goals first | (cases hs; done) | (injection hs with hs; subst hs; exact .inl hh)
      · cases hs
    · simp only [St.use] at hs
      split at hs
      · injection hs with hs; subst hs; exact .inl (List.mem_of_mem_erase hh)
      · cases hs
    · split at hs
      · rename_i s1 h1
        injection hs with hs; subst hs
        exact .inl (mem_rmPtr h1 hh)
      · rename_i h1; exact absurd hs (by intro e; exact h1 _ e)
    · rename_i r' hp
      simp only [St.use, St.file] at hs
      repeat' split at hs
      all_goals first | (cases hs; done) | skip
      injection hs with hs; subst hs
      rcases List.mem_cons.1 hh with e | e
      · subst e
        exact .inr ⟨.client t1 r', i.b.cl t1 r' (by rw [hp]; rfl), hr, by simp⟩
      · exact .inl e
    · split at hs
      · split at hs
        · rename_i s1 h1
          injection hs with hs; subst hs
          exact .inl (mem_rmPtr h1 hh)
        · rename_i h1; exact absurd hs (by intro e; exact h1 _ e)
      · injection hs with hs; subst hs; exact .inl hh

theorem alone_step {fo : Nat → Nat} {s s' : St} {g : Nat → Stg} (i : I fo s g) {op : Op} (hs : step s op = .ok s') {t r : Nat} {b : Bool} (hc : checks s t = some (b, r))
    (ha : Alone s t r) : Alone s' t r := by
  intro h hh hr
  rcases new_ptr i hs hc hh hr with h1 | ⟨h', h1, h2, h3⟩
  · exact ha h h1 hr
  · exact absurd (ha h' h1 h2) h3

end Foxxll.NrefCheck
