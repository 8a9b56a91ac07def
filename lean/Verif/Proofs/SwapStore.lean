import Verif.Proofs.SwapStoreCmd
/-
Runs of the block scheduler on top of the store.
-/
namespace Foxxll.SwapStore
open Foxxll

variable {k : Queue.Kind} {qid : Nat → Nat} {cfgs : List (Nat × Bool)} {memory : Nat}
variable {g : Cfg} {s : Sys} {h : Store.Hist} {a : Swap.Abs Data} {fu : Nat → Prop} {x : (Nat → Data) × (Nat → Data)}

theorem env_fresh (dflt : Data) : ∀ l, (env dflt).pick l ∉ l := pick_fresh
theorem env_fill (dflt : Data) : ∀ d, (env dflt).fill d = dflt := fun _ => rfl

/-- The result of a call of the model without requests. -/
def Ans.pure (x : (Nat → Data) × (Nat → Data)) : Ans → Swap.Res Data
  | .unit => .unit
  | .int p => .data (x.1 p)
  | .ext e => .ext e
  | .id n => .id n

/-- The call, seen from the model without requests. -/
def Pure (g : Cfg) (max : Nat) (s : Sys) (a : Swap.Abs Data) (x : (Nat → Data) × (Nat → Data)) : Prop :=
  match s.cur with
  | none => s.todo = [] ∧ Swap.Run (env g.dflt) (join s.c x) a
  | some (op, ans) => (∀ p, ans = .int p → p < max) ∧ ∃ s0, Swap.Run (env g.dflt) s0 a ∧ Swap.Allowed a op.toOp ∧
      Swap.step (env g.dflt) s0 op.toOp = some (ans.pure (effs g.dflt x s.todo), join s.c (effs g.dflt x s.todo))

structure RI (k : Queue.Kind) (qid : Nat → Nat) (cfgs : List (Nat × Bool)) (memory : Nat) (g : Cfg) (s : Sys) (h : Store.Hist) (a : Swap.Abs Data)
    (fu : Nat → Prop) (x : (Nat → Data) × (Nat → Data)) : Prop where
  mi : MI k qid cfgs (g.count memory) g s h fu x
  max : s.c.max = g.count memory
  cans : (s.chk fu).cans (g.count memory) g.raw s.todo
  good : Good s.c ((s.chk fu).nexts s.todo)
  zero : ((s.chk fu).nexts s.todo).n = 0
  pure : Pure g (g.count memory) s a x

theorem plan_int {c c' : Ctl} {op : Call} {p : Nat} {l : List Cmd} (h : plan c op = some (.int p, c', l)) : ∃ id, (c'.blocks id).int = some p := by
  cases op with
  | acquire id u =>
    obtain ⟨⟨p', c1, l1⟩, h1, h2⟩ := Option.map_eq_some_iff.1 h
    cases h2
    refine ⟨id, ?_⟩
    unfold acquire at h1
    split at h1
    · cases h1
    · simp only at h1
      split at h1
      · rename_i q hq
        cases h1
        simp [Swap.St.set, hq]
      · obtain ⟨⟨p2, c2, l2⟩, g1, g2⟩ := Option.map_eq_some_iff.1 h1
        cases g2
        simp [bringIn, Swap.St.set]
  | write id v =>
    simp only [plan] at h
    repeat' split at h
    all_goals first
      | (cases h; done)
      | (obtain ⟨_, _, h2⟩ := Option.map_eq_some_iff.1 h; cases h2)
  | retag m l =>
    simp only [plan] at h
    split at h <;> cases h
  | alloc => cases h
  | _ => obtain ⟨_, _, h2⟩ := Option.map_eq_some_iff.1 h; cases h2

theorem Good.mono {c : Ctl} {K : Chk} (h : Good c K) {P : Nat → Prop} (h1 : ∀ e, P e → K.own e) (h2 : ∀ i e, (c.blocks i).ext = some e → P e) {n : Nat} :
    Good c ⟨P, K.full, n⟩ := ⟨h2, fun e he => h.own e (h1 e he), fun e he => h.full e (h1 e he)⟩

theorem run_inv (hraw : 0 < g.raw) (hdl : g.dflt.length = g.raw) (hr : Run k qid cfgs memory g s h a) : ∃ fu x, RI k qid cfgs memory g s h a fu x := by
  induction hr with
  | @start d h hl hu hm =>
    refine ⟨fun _ => False, (fun p => d.mem (g.base + p), fun _ => []), ⟨hl, ?_, ?_, ?_, ?_, ?_, ?_, ?_⟩, rfl, trivial, ⟨?_, ?_, ?_⟩, rfl, rfl, ?_⟩
    · intro e he; cases he
    · intro e he; cases he
    · intro e he; cases he
    · intro _ r q _ _ _ e he; cases he
    · intro r q h1 h2 h3 h4
      exact absurd ⟨h3, h4⟩ (hu r q h1 h2)
    · intro p hp
      exact ⟨hm p hp, fun _ => rfl⟩
    · intro r hr; cases hr
    · intro i e hi; cases hi
    · intro e he; cases he
    · intro e he; cases he
    · exact Swap.Run.start memory g.raw _ _
  | @next s s' h a ev _ hf hs ih =>
    obtain ⟨fu, x, R⟩ := ih
    have I := R.mi
    cases ev with
    | call op =>
      simp only [Sys.step] at hs
      split at hs
      · cases hs
      · rename_i hcur
        split at hs
        · cases hs
        · rename_i ans c l hp
          injection hs with hs; subst hs
          have hP := R.pure
          simp only [Pure, hcur] at hP
          obtain ⟨ht, hrun⟩ := hP
          obtain ⟨f1, f2, f3⟩ := hf
          have hinv := Swap.run_inv (env g.dflt) (env_fresh _) (env_fill _) hrun
          have hK : (s.chk fu).nexts s.todo = s.chk fu := by rw [ht]; rfl
          have hg := R.good
          have hz := R.zero
          rw [hK] at hg hz
          obtain ⟨p1, p2, p3⟩ := plan_ready (raw := g.raw) (core_split hinv.core) hg hz f2 f3 hp
          obtain ⟨r, p4, p5⟩ := plan_pure (dflt := g.dflt) (x := x) hp
          have hinv' := (Swap.step_inv (env g.dflt) (env_fresh _) (env_fill _) hinv op.toOp f1 p4).2
          have hmax : (join c (effs g.dflt x l)).max = (join s.c x).max := Swap.step_max p4
          have hrd := I.norun (fun p e l => by rw [ht]; intro e; cases e)
          have hr : r = ans.pure (effs g.dflt x l) := by cases ans <;> exact p5
          subst hr
          refine ⟨fu, x, I.tables hrd c l _, hmax.trans R.max, ?_, p2, p3, ?_, join s.c x, hrun, f1, p4⟩
          · rw [← R.max]; exact p1
          · intro p hp'
            subst hp'
            obtain ⟨id, hid⟩ := plan_int hp
            have := core_lt (core_split hinv'.core) hid
            rw [← R.max]
            exact Nat.lt_of_lt_of_eq this hmax
    | cmd r f o =>
      simp only [Sys.step] at hs
      split at hs
      · cases hs
      · rename_i c l ht
        obtain ⟨hfr, hfo⟩ := hf
        have hcans := R.cans
        have hg := R.good
        have hz := R.zero
        have hP := R.pure
        rw [ht] at hcans
        obtain ⟨h1, h2, h3⟩ := I.cmd hraw hdl ht hcans.1 hfr hfo hs
        have ha : known g s a (.cmd r f o) = a := rfl
        rw [ha]
        rcases h3 with ⟨m1, m2, m3⟩ | ⟨m1, m2, m3⟩
        · rw [ht] at hg hz
          refine ⟨_, _, m1, by rw [h1]; exact R.max, ?_, ?_, ?_, ?_⟩
          · rw [m3, m2]; exact hcans.2
          · rw [m3, m2, h1]; exact hg
          · rw [m3, m2]; exact hz
          · unfold Pure at hP ⊢
            rw [h2, m2, h1]
            split at hP
            · rw [ht] at hP; cases hP.1
            · rw [ht] at hP; exact hP
        · refine ⟨_, _, m1, by rw [h1]; exact R.max, ?_, ?_, ?_, ?_⟩
          · rw [m3, m2]; exact R.cans
          · rw [m3, m2, h1]; exact hg
          · rw [m3, m2]; exact hz
          · unfold Pure at hP ⊢
            rw [h2, m2, h1]
            exact hP
    | ret =>
      simp only [Sys.step] at hs
      split at hs
      · rename_i ht
        split at hs
        · rename_i hcur
          injection hs with hs; subst hs
          obtain ⟨⟨op, ans⟩, hcur⟩ := Option.isSome_iff_exists.1 hcur
          have hrd := I.norun (fun p e l => by rw [ht]; intro e; cases e)
          have hP := R.pure
          simp only [Pure, hcur] at hP
          obtain ⟨g1, s0, g2, g3, g4⟩ := hP
          rw [ht] at g4
          have hres : ans.res g s.d = ans.pure x := by
            cases ans with
            | int p => exact congrArg Swap.Res.data ((I.mem p (g1 p rfl)).2 (fun r q hr => by rw [hrd] at hr; cases hr))
            | _ => rfl
          refine ⟨fu, x, ?_, R.max, R.cans, R.good, R.zero, ht, ?_⟩
          · have := I.tables hrd s.c s.todo none
            exact this
          · show Swap.Run _ _ (known g s a .ret)
            simp only [known, hcur, hres]
            exact Swap.Run.step _ g2 g3 g4
        · cases hs
      · cases hs
    | adopt b v =>
      simp only [Sys.step] at hs
      split at hs
      · cases hs
      · rename_i hcur
        injection hs with hs; subst hs
        have hP := R.pure
        simp only [Pure, hcur] at hP
        obtain ⟨ht, hrun⟩ := hP
        have hrd := I.norun (fun p e l => by rw [ht]; intro e; cases e)
        obtain ⟨f1, f2, f3, ⟨dk, w, f4, f5, f6, f7, f8⟩, f9⟩ := hf
        have hg := R.good
        have hz := R.zero
        rw [ht] at hg hz
        have hout : s.out = [] := List.length_eq_zero_iff.1 hz
        have hfr : pick s.c.live ∉ s.own := fun he => pick_fresh _ (hg.own _ he)
        have hbid : ∀ j ∈ s.own, Store.upd s.bid (pick s.c.live) b j = s.bid j := by
          intro j hj
          have : j ≠ pick s.c.live := fun h => hfr (h ▸ hj)
          simp [Store.upd, this]
        have hbe : Store.upd s.bid (pick s.c.live) b (pick s.c.live) = b := by simp [Store.upd]
        refine ⟨fun j => j = pick s.c.live ∨ fu j, (x.1, fun j => if j = pick s.c.live then v else x.2 j), ⟨I.life, ?_, ?_, ?_, ?_, I.buf, I.mem, ?_⟩, R.max, ?_, ⟨?_, ?_, ?_⟩, ?_, ?_⟩
        · intro i hi j hj hij
          change Store.upd s.bid (pick s.c.live) b i = Store.upd s.bid (pick s.c.live) b j at hij
          simp only [List.mem_cons] at hi hj
          rcases hi with rfl | hi
          · rcases hj with rfl | hj
            · rfl
            · rw [hbe, hbid j hj] at hij; exact absurd hij.symm (f3 j hj)
          · rcases hj with rfl | hj
            · rw [hbe, hbid i hi] at hij; exact absurd hij (f3 i hi)
            · rw [hbid i hi, hbid j hj] at hij; exact I.inj i hi j hj hij
        · intro j hj
          show Store.upd s.bid (pick s.c.live) b j ∈ s.d.m.live ∧ (Store.upd s.bid (pick s.c.live) b j).size = _
          simp only [List.mem_cons] at hj
          rcases hj with rfl | hj
          · rw [hbe]; exact ⟨f1, f2⟩
          · rw [hbid j hj]; exact I.live j hj
        · intro j hj hu
          show Val qid s.d h s.out (Store.upd s.bid (pick s.c.live) b j) (if j = pick s.c.live then v else x.2 j)
          simp only [List.mem_cons] at hj
          rcases hj with rfl | hj
          · rw [hbe, if_pos rfl]; exact ⟨dk, w, f4, f5, f8, .inr ⟨f6, f7⟩⟩
          · have hne : j ≠ pick s.c.live := fun h => hfr (h ▸ hj)
            rw [hbid j hj, if_neg hne]
            exact I.val j hj (hu.resolve_left hne)
        · intro hk r q hp hq hw j hj hon
          change q.On (Store.upd s.bid (pick s.c.live) b j) at hon
          simp only [List.mem_cons] at hj
          rcases hj with rfl | hj
          · rw [hbe] at hon
            exact absurd hon (f9 r q hp hq hw)
          · rw [hbid j hj] at hon
            exact I.rdb hk r q hp hq hw j hj hon
        · intro r hr
          rw [show s.rd = some r from hr] at hrd; cases hrd
        · show Chk.cans _ _ _ s.todo
          rw [ht]; trivial
        · intro i e' hi
          show ((Sys.chk _ _).nexts s.todo).own e'
          rw [ht]
          exact List.mem_cons_of_mem _ (hg.ext i e' hi)
        · intro e' he
          change ((Sys.chk _ _).nexts s.todo).own e' at he
          rw [ht] at he
          rw [live_iff]
          have he : e' ∈ pick s.c.live :: s.own := he
          simp only [List.mem_cons] at he
          rcases he with rfl | he
          · exact .inr (by simp)
          · rcases live_iff.1 (hg.own e' he) with h | h
            · exact .inl h
            · exact .inr (List.mem_cons_of_mem _ h)
        · intro e' he
          change ((Sys.chk _ _).nexts s.todo).own e' at he
          show ((Sys.chk _ _).nexts s.todo).full e'
          rw [ht] at he ⊢
          have he : e' ∈ pick s.c.live :: s.own := he
          simp only [List.mem_cons] at he
          rcases he with rfl | he
          · exact .inl rfl
          · exact .inr (hg.full e' he)
        · show ((Sys.chk _ _).nexts s.todo).n = 0
          rw [ht]; exact hz
        · unfold Pure
          simp only [hcur]
          exact ⟨ht, Swap.Run.step (.client v) hrun trivial rfl⟩
    | drop e =>
      simp only [Sys.step] at hs
      split at hs
      · cases hs
      · rename_i hcur
        split at hs
        · rename_i hh
          injection hs with hs; subst hs
          have hP := R.pure
          simp only [Pure, hcur] at hP
          obtain ⟨ht, hrun⟩ := hP
          have hinv := Swap.run_inv (env g.dflt) (env_fresh _) (env_fill _) hrun
          have hg := R.good
          have hz := R.zero
          rw [ht] at hg hz
          have hrd := I.norun (fun p e l => by rw [ht]; intro e; cases e)
          have hsub : ∀ j, j ∈ s.own.filter (· != e) → j ∈ s.own := fun j hj => (List.mem_filter.1 hj).1
          refine ⟨fu, x, ⟨I.life, fun i hi j hj => I.inj i (hsub i hi) j (hsub j hj), fun j hj => I.live j (hsub j hj), fun j hj => I.val j (hsub j hj),
            fun hk r q hp hq hw j hj => I.rdb hk r q hp hq hw j (hsub j hj), I.buf, I.mem, ?_⟩, R.max, ?_, ?_, ?_, ?_⟩
          · intro r hr
            rw [show s.rd = some r from hr] at hrd; cases hrd
          · show Chk.cans _ _ _ s.todo
            rw [ht]; trivial
          · show Good _ ((Sys.chk _ _).nexts s.todo)
            rw [ht]
            refine ⟨?_, fun j hj => hg.own j (hsub j hj), fun j hj => hg.full j (hsub j hj)⟩
            intro i e' hi
            refine List.mem_filter.2 ⟨hg.ext i e' hi, ?_⟩
            have := (hinv.core.extLive i e' hi).2
            have hne : e' ≠ e := by
              intro h; subst h
              exact this (show e' ∈ s.c.held by simpa using hh)
            simpa using hne
          · show ((Sys.chk _ _).nexts s.todo).n = 0
            rw [ht]; exact hz
          · unfold Pure
            simp only [hcur]
            exact ⟨ht, hrun⟩
        · cases hs
    | env op =>
      obtain ⟨f1, f2, f3⟩ := hf
      obtain ⟨d', h1, h2⟩ := via_ok hs
      subst h2
      exact ⟨fu, x, I.env f1 f2 f3 h1, R.max, R.cans, R.good, R.zero, R.pure⟩

end Foxxll.SwapStore
