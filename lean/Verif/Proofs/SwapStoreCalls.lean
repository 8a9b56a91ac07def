import Verif.Proofs.SwapStore
/-
The asserts of the block scheduler on top of the store are those of the model without requests.
-/
namespace Foxxll.SwapStore
open Foxxll

variable {dflt : Data} {x : (Nat → Data) × (Nat → Data)}

theorem detach_none {c : Ctl} {id : Nat} (h : detach c id = none) : ¬ (c.blocks id).isEvictable = true := by
  intro he
  have hi : (c.blocks id).int ≠ none := by
    intro hn
    simp [Swap.SB.isEvictable, Swap.SB.isInternal, hn] at he
  obtain ⟨p, hp⟩ := Option.ne_none_iff_exists'.1 hi
  unfold detach at h
  rw [if_pos he] at h
  cases hc : cleanAsync c id with
  | none =>
    unfold cleanAsync at hc
    simp only [hp] at hc
    repeat' split at hc
    all_goals cases hc
  | some r =>
    have := (cleanAsync_refs (c' := r.1) (l := r.2) hc id).2
    simp only [cleanSync, hc, Option.map_some, Option.bind_some, this, hp] at h
    cases h

theorem sdetach_none {s : Swap.St Data} {id : Nat} (h : ¬ (s.blocks id).isEvictable = true) : Swap.detach (env dflt) s id = none := by
  unfold Swap.detach
  rw [if_neg h]

theorem flushAux_none {k : Nat} {c : Ctl} (h : flushAux k c = none) : Swap.flushAux (env dflt) k (join c x) = none := by
  induction k generalizing c x with
  | zero => cases h
  | succ k ih =>
    unfold flushAux at h
    unfold Swap.flushAux
    have e1 : Swap.popEvict (join c x).mode (join c x).evict = Swap.popEvict c.mode c.evict := rfl
    rw [e1]
    split at h
    · cases h
    · rename_i y rest hp
      simp only [hp]
      by_cases he : (c.blocks y.2).isEvictable = true
      · have hi : (c.blocks y.2).int ≠ none := by
          intro hn
          simp [Swap.SB.isEvictable, Swap.SB.isInternal, hn] at he
        obtain ⟨p, hp⟩ := Option.ne_none_iff_exists'.1 hi
        cases hc : cleanAsync { c with evict := rest } y.2 with
        | none =>
          unfold cleanAsync at hc
          simp only [hp] at hc
          repeat' split at hc
          all_goals cases hc
        | some r =>
          obtain ⟨c1, l1⟩ := r
          obtain ⟨b1, b2⟩ := cleanAsync_refs hc y.2
          cases hd : detach c1 y.2 with
          | none =>
            refine absurd ?_ (detach_none hd)
            simp only [Swap.SB.isEvictable, Swap.SB.isAcquired, Swap.SB.isInternal, b1, b2] at he ⊢
            exact he
          | some t =>
            obtain ⟨q, c2, l2⟩ := t
            simp only [hc, hd, Option.bind_some, Option.map_eq_none_iff] at h
            obtain ⟨a1, a2, a3⟩ := detach_quiet (cleanAsync_clean hc) hd
            have hc' := cleanAsync_pure (x := x) (dflt := dflt) hc
            have hd' : Swap.detach (env dflt) { join c x with evict := rest } y.2 = some (q, join c2 (effs dflt x l1)) := by
              rw [show ({ join c x with evict := rest } : Swap.St Data) = join { c with evict := rest } x from rfl]
              unfold Swap.detach
              rw [if_pos (by exact he), hc']
              have a2' : ((join c1 (effs dflt x l1)).blocks y.2).int = some q := a2
              simp only [Option.bind_some, a2']
              rw [a3]; rfl
            rw [hd']
            simp only [Option.bind_some]
            exact ih h
      · rw [sdetach_none (s := { join c x with evict := rest }) (by exact he)]
        rfl

/-- A call that fails in one model fails in the other. -/
theorem plan_none {c : Ctl} {op : Call} (h : plan c op = none) : Swap.step (env dflt) (join c x) op.toOp = none := by
  have e : (join c x).blocks = c.blocks := rfl
  have en : (join c x).n = c.n := rfl
  have hdeinit : ∀ id, deinit c id = none → Swap.deinit (join c x) id = none := by
    intro id h
    unfold deinit Swap.deinit at h
    unfold Swap.deinit
    rw [en, e]
    simp only [Option.map_eq_none_iff] at h
    split at h
    · rename_i hn; rw [if_pos hn]
    · rename_i hn
      rw [if_neg hn]
      simp only at h ⊢
      split at h
      · rename_i ha; rw [if_pos ha]
      · split at h <;> cases h
  cases op with
  | acquire id u =>
    simp only [plan, Option.map_eq_none_iff] at h
    simp only [Call.toOp, Swap.step, Option.map_eq_none_iff]
    unfold acquire at h
    unfold Swap.acquire
    rw [en, e]
    split at h
    · rename_i hn; rw [if_pos hn]
    · rename_i hn
      rw [if_neg hn]
      simp only at h ⊢
      split at h
      · cases h
      · rename_i hq
        simp only [hq]
        simp only [Option.map_eq_none_iff] at h ⊢
        unfold getFree at h
        unfold Swap.getFree
        rw [getFreeBs_pure]
        split at h
        · cases h
        · rename_i c1 e1
          simp only [e1]
          split at h
          · rename_i hp
            have hp' : Swap.popEvict (join c1 x).mode (join c1 x).evict = none := hp
            simp only [hp']
          · rename_i y rest hp
            have hp' : Swap.popEvict (join c1 x).mode (join c1 x).evict = some (y, rest) := hp
            simp only [hp']
            exact sdetach_none (s := { join c1 x with evict := rest }) (by have := detach_none h; exact this)
  | write id v =>
    simp only [plan] at h
    simp only [Call.toOp, Swap.step, Swap.write, e, en]
    split at h
    · rename_i hn; rw [if_pos hn]; rfl
    · rename_i hn
      rw [if_neg hn]
      split at h
      · rename_i ha
        rw [if_pos ha]
        simp only [Option.map_eq_none_iff] at h ⊢
        exact h
      · rename_i ha; rw [if_neg ha]; rfl
  | release id d pr =>
    simp only [plan, Option.map_eq_none_iff] at h
    simp only [Call.toOp, Swap.step, Option.map_eq_none_iff]
    unfold release at h
    unfold Swap.releaseWith
    rw [en, e]
    split at h
    · rename_i hn; rw [if_pos hn]
    · rename_i hn
      rw [if_neg hn]
      simp only at h ⊢
      split at h
      · rename_i ha
        rw [if_pos ha]
        split at h
        · cases h
        · rename_i hb
          rw [if_neg hb]
          split at h
          · cases h
          · rename_i hx
            rw [if_neg hx]
            simp only [Option.map_eq_none_iff] at h ⊢
            exact sdetach_none (s := (join c x).set id { c.blocks id with dirty := d || (c.blocks id).dirty, refs := (c.blocks id).refs - 1 }) (detach_none h)
      · rename_i ha; rw [if_neg ha]
  | deinit id =>
    simp only [plan, Option.map_eq_none_iff] at h
    simp only [Call.toOp, Swap.step, Option.map_eq_none_iff]
    exact hdeinit id h
  | init id o =>
    simp only [plan, Option.map_eq_none_iff] at h
    simp only [Call.toOp, Swap.step, Option.map_eq_none_iff]
    unfold Swap.initialize_ at h ⊢
    rw [en, e]
    split at h
    · rename_i hn; rw [if_pos hn]
    · rename_i hn
      rw [if_neg hn]
      simp only at h ⊢
      split at h
      · rename_i hi; rw [if_pos hi]
      · cases h
  | extract id =>
    simp only [plan, Option.map_eq_none_iff] at h
    simp only [Call.toOp, Swap.step, Option.map_eq_none_iff]
    unfold extract at h
    unfold Swap.extract Swap.putOut
    rw [en, e]
    split at h
    · rename_i hn; rw [if_pos hn]
    · rename_i hn
      rw [if_neg hn]
      simp only [Option.map_eq_none_iff] at h ⊢
      split at h
      · rename_i hi
        rw [if_pos hi]
        simp only [Option.map_eq_none_iff] at h ⊢
        have := detach_none h
        refine sdetach_none ?_
        intro hc
        apply this
        split at hc
        · rename_i h1; rw [if_pos h1]; exact hc
        · rename_i h1; rw [if_neg h1]; exact hc
      · cases h
  | flush =>
    simp only [plan, flush, Option.map_eq_none_iff] at h
    simp only [Call.toOp, Swap.step, Option.map_eq_none_iff]
    exact flushAux_none h
  | alloc => cases h
  | free id =>
    simp only [plan, Option.map_eq_none_iff] at h
    simp only [Call.toOp, Swap.step, Swap.freeBlock, Option.map_eq_none_iff]
    exact hdeinit id h
  | retag m l =>
    simp only [plan] at h
    simp only [Call.toOp, Swap.step]
    have ee : (join c x).evict = c.evict := rfl
    rw [ee]
    split at h
    · cases h
    · rename_i hp; rw [if_neg hp]

end Foxxll.SwapStore
