import Verif.Proofs.SwapStorePlan
/-
The commands of a call are in order: blocks are written before they are read, and so on.
-/
namespace Foxxll.SwapStore
open Foxxll

/-- Which external blocks there are, which of them have contents, and the number of writes not waited for. -/
structure Chk where
  own : Nat → Prop
  full : Nat → Prop
  n : Nat

def Chk.can (K : Chk) (max raw : Nat) : Cmd → Prop
  | .new e => ¬ K.own e
  | .delete e => K.own e ∧ K.n = 0
  | .write p e => K.own e ∧ p < max
  | .wait => 0 < K.n
  | .read p e => K.own e ∧ K.full e ∧ p < max ∧ K.n = 0
  | .fill p => p < max ∧ K.n = 0
  | .put p x => p < max ∧ K.n = 0 ∧ x.length = raw

def Chk.next (K : Chk) : Cmd → Chk
  | .new e => { K with own := fun j => j = e ∨ K.own j, full := fun j => j ≠ e ∧ K.full j }
  | .delete e => { K with own := fun j => j ≠ e ∧ K.own j }
  | .write _ e => { K with full := fun j => j = e ∨ K.full j, n := K.n + 1 }
  | .wait => { K with n := K.n - 1 }
  | _ => K

def Chk.cans (max raw : Nat) : Chk → List Cmd → Prop
  | _, [] => True
  | K, x :: l => K.can max raw x ∧ Chk.cans max raw (K.next x) l

def Chk.nexts (K : Chk) (l : List Cmd) : Chk := l.foldl Chk.next K

theorem cans_append {max raw : Nat} {K : Chk} {l m : List Cmd} (h1 : K.cans max raw l) (h2 : (K.nexts l).cans max raw m) : K.cans max raw (l ++ m) := by
  induction l generalizing K with
  | nil => exact h2
  | cons x l ih => exact ⟨h1.1, ih h1.2 h2⟩

theorem nexts_append {K : Chk} {l m : List Cmd} : K.nexts (l ++ m) = (K.nexts l).nexts m := List.foldl_append ..

theorem wait_cans {max raw : Nat} (n : Nat) {K : Chk} (h : K.n = n) :
    K.cans max raw (List.replicate n .wait) ∧ K.nexts (List.replicate n .wait) = { K with n := 0 } := by
  induction n generalizing K with
  | zero => exact ⟨trivial, by cases K; simp only at h; subst h; rfl⟩
  | succ n ih =>
    obtain ⟨h1, h2⟩ := ih (K := K.next .wait) (by show K.n - 1 = n; omega)
    rw [List.replicate_succ]
    refine ⟨⟨by show 0 < K.n; omega, h1⟩, ?_⟩
    show (K.next .wait).nexts _ = _
    rw [h2]; rfl

/-- Between calls, and inside of calls when no new block is without contents. -/
structure Good (c : Ctl) (K : Chk) : Prop where
  ext : ∀ i e, (c.blocks i).ext = some e → K.own e
  own : ∀ e, K.own e → e ∈ c.live
  full : ∀ e, K.own e → K.full e

theorem live_iff {c : Ctl} {e : Nat} : e ∈ c.live ↔ (∃ i, i < c.n ∧ (c.blocks i).ext = some e) ∨ e ∈ c.held := by
  simp [Swap.St.live, List.mem_filterMap]

/-- Tables with the same external blocks. -/
theorem Good.congr {c c' : Ctl} {K : Chk} (h : Good c K) (he : ∀ i, (c'.blocks i).ext = (c.blocks i).ext) (hn : c'.n = c.n) (hh : c'.held = c.held) : Good c' K := by
  refine ⟨fun i e hi => h.ext i e (by rw [← he]; exact hi), ?_, h.full⟩
  intro e ho
  rw [live_iff]
  simp only [he, hn, hh]
  exact live_iff.1 (h.own e ho)

theorem core_join {c : Ctl} {hand : Option Nat} {x : (Nat → Data) × (Nat → Data)} (h : Swap.Core c hand) : Swap.Core (join c x) hand :=
  ⟨h.total, h.freeNd, h.freeLt, h.att, h.inj, h.handOk, h.cover, h.dirtyInt, h.refsInt, h.extOwn, h.extLive⟩

theorem core_split {c : Ctl} {hand : Option Nat} {x : (Nat → Data) × (Nat → Data)} (h : Swap.Core (join c x) hand) : Swap.Core c hand :=
  ⟨h.total, h.freeNd, h.freeLt, h.att, h.inj, h.handOk, h.cover, h.dirtyInt, h.refsInt, h.extOwn, h.extLive⟩

theorem core_lt {c : Ctl} {hand : Option Nat} (h : Swap.Core c hand) {i p : Nat} (hp : (c.blocks i).int = some p) : p < c.max := by
  have := (h.att i p hp).2.1
  have := h.total
  omega

variable {raw : Nat}

theorem cleanAsync_ready {c c' : Ctl} {hand : Option Nat} {id : Nat} {l : List Cmd} {K : Chk} (hc : Swap.Core c hand) (hg : Good c K)
    (h : cleanAsync c id = some (c', l)) :
    K.cans c.max raw l ∧ Good c' (K.nexts l) ∧ (K.nexts l).n = K.n + (if l.isEmpty then 0 else 1) ∧ c'.n = c.n ∧ c'.held = c.held ∧ c'.max = c.max := by
  unfold cleanAsync at h
  simp only at h
  split at h
  · split at h
    · cases h
    · rename_i p hp
      have hlt := core_lt hc hp
      have hid := (hc.att id p hp).1
      split at h
      · rename_i e he
        cases h
        refine ⟨⟨⟨hg.ext id e he, hlt⟩, trivial⟩, ?_, rfl, rfl, rfl, rfl⟩
        have g := hg.congr (c' := c.set id { c.blocks id with dirty := false }) (fun i => by
          simp only [Swap.St.set]; split
          · rename_i hi; subst hi; rfl
          · rfl) rfl rfl
        exact ⟨g.ext, g.own, fun j hj => .inr (g.full j hj)⟩
      · rename_i he
        cases h
        have hfr : ¬ K.own (pick c.live) := fun ho => pick_fresh _ (hg.own _ ho)
        refine ⟨⟨hfr, ⟨.inl rfl, hlt⟩, trivial⟩, ⟨?_, ?_, ?_⟩, rfl, rfl, rfl, rfl⟩
        · intro i e hi
          simp only [Swap.St.set] at hi
          split at hi
          · injection hi with hi; exact .inl hi.symm
          · exact .inr (hg.ext i e hi)
        · intro e ho
          rw [live_iff]
          rcases ho with rfl | ho
          · exact .inl ⟨id, hid, by simp⟩
          · rcases live_iff.1 (hg.own e ho) with ⟨i, h1, h2⟩ | h1
            · refine .inl ⟨i, h1, ?_⟩
              have : i ≠ id := by intro e; subst e; rw [he] at h2; cases h2
              simp only [Swap.St.set, this, if_false]; exact h2
            · exact .inr h1
        · intro e ho
          rcases ho with rfl | ho
          · exact .inl rfl
          · refine .inr ⟨?_, hg.full e ho⟩
            intro e'; subst e'
            exact hfr ho
  · cases h
    exact ⟨trivial, hg, rfl, rfl, rfl, rfl⟩

theorem cleanSync_ready {c c' : Ctl} {hand : Option Nat} {id : Nat} {l : List Cmd} {K : Chk} (hc : Swap.Core c hand) (hg : Good c K)
    (h : cleanSync c id = some (c', l)) :
    K.cans c.max raw l ∧ Good c' (K.nexts l) ∧ (K.nexts l).n = K.n ∧ c'.n = c.n ∧ c'.held = c.held ∧ c'.max = c.max := by
  obtain ⟨⟨c1, l1⟩, h1, h2⟩ := Option.map_eq_some_iff.1 h
  simp only at h2
  injection h2 with h2 h3
  subst h2 h3
  obtain ⟨a1, a2, a3, a4⟩ := cleanAsync_ready (raw := raw) hc hg h1
  by_cases e : l1.isEmpty = true
  · simp only [e, if_true, List.append_nil, Nat.add_zero] at a3 ⊢
    exact ⟨a1, a2, a3, a4⟩
  · simp only [e, if_false, Bool.false_eq_true] at a3 ⊢
    refine ⟨cans_append a1 ⟨?_, trivial⟩, ?_, ?_, a4⟩
    · show 0 < (K.nexts l1).n; omega
    · rw [nexts_append]
      exact ⟨a2.ext, a2.own, a2.full⟩
    · rw [nexts_append]
      show (K.nexts l1).n - 1 = _
      omega

theorem detach_ready {c c' : Ctl} {hand : Option Nat} {id p : Nat} {l : List Cmd} {K : Chk} (hc : Swap.Core c hand) (hg : Good c K)
    (h : detach c id = some (p, c', l)) :
    K.cans c.max raw l ∧ Good c' (K.nexts l) ∧ (K.nexts l).n = K.n ∧ c'.n = c.n ∧ c'.held = c.held ∧ c'.max = c.max := by
  unfold detach at h
  split at h
  · obtain ⟨⟨c1, l1⟩, h1, h2⟩ := Option.bind_eq_some_iff.1 h
    split at h2
    · cases h2
    · cases h2
      obtain ⟨a1, a2, a3, a4, a5, a6⟩ := cleanSync_ready (raw := raw) hc hg h1
      refine ⟨a1, ?_, a3, a4, a5, a6⟩
      refine a2.congr (fun i => ?_) rfl rfl
      simp only [Swap.St.set]; split
      · rename_i hi; subst hi; rfl
      · rfl
  · cases h

theorem env_pick : ∀ l, (env dflt).pick l ∉ l := pick_fresh

variable {x : (Nat → Data) × (Nat → Data)} {dflt : Data}

theorem detach_core {c c' : Ctl} {id p : Nat} {l : List Cmd} (hc : Swap.Core c none) (h : detach c id = some (p, c', l)) : Swap.Core c' (some p) := by
  have hp := detach_pure (x := (fun _ => [], fun _ => [])) (dflt := []) h
  exact core_split (Swap.detached_core (core_join hc) (Swap.detach_inv pick_fresh hp))

theorem good_evict {c : Ctl} {K : Chk} (hg : Good c K) (l : List (Nat × Nat)) : Good { c with evict := l } K := hg.congr (fun _ => rfl) rfl rfl

theorem getFree_ready {c c' : Ctl} {p : Nat} {l : List Cmd} {K : Chk} (hc : Swap.Core c none) (hg : Good c K) (h : getFree c = some (p, c', l)) :
    K.cans c.max raw l ∧ Good c' (K.nexts l) ∧ (K.nexts l).n = K.n ∧ p < c.max := by
  unfold getFree at h
  split at h
  · rename_i q c1 e
    cases h
    obtain ⟨a1, a2, a3, a4, a5, a6, a7, a8, a9⟩ := Swap.getFreeBs_core hc e
    refine ⟨trivial, hg.congr (fun i => by rw [a2]) a7 a6, rfl, ?_⟩
    have := (a1.handOk p rfl).1
    have := a1.total
    omega
  · rename_i c1 e
    obtain ⟨e1, _⟩ := Swap.getFreeBs_none e
    subst e1
    split at h
    · cases h
    · rename_i y rest hp
      have hc' := hc.evict c1.mode rest
      obtain ⟨a1, a2, a3, a4, a5, a6⟩ := detach_ready (raw := raw) hc' (good_evict hg rest) h
      refine ⟨a1, a2, a3, ?_⟩
      have := detach_core hc' h
      have h1 := (this.handOk p rfl).1
      have h2 := this.total
      have h3 : c'.max = c1.max := a6
      omega

theorem flushAux_ready {k n : Nat} {c c' : Ctl} {l : List Cmd} {K : Chk} (hc : Swap.Core c none) (hg : Good c K) (h : flushAux k c = some (c', n, l)) :
    K.cans c.max raw l ∧ Good c' (K.nexts l) ∧ (K.nexts l).n = K.n + n := by
  induction k generalizing c c' n l K with
  | zero => cases h; exact ⟨trivial, hg, rfl⟩
  | succ k ih =>
    unfold flushAux at h
    split at h
    · cases h; exact ⟨trivial, hg, rfl⟩
    · rename_i y rest hp
      obtain ⟨⟨c1, l1⟩, h1, h2⟩ := Option.bind_eq_some_iff.1 h
      obtain ⟨⟨p, c2, l2⟩, h3, h4⟩ := Option.bind_eq_some_iff.1 h2
      obtain ⟨⟨c3, n3, l3⟩, h5, h6⟩ := Option.map_eq_some_iff.1 h4
      simp only at h1 h3 h5 h6
      injection h6 with e1 e2
      injection e2 with e2 e3
      subst e1 e2 e3
      obtain ⟨a1, a2, a3⟩ := detach_quiet (cleanAsync_clean h1) h3
      subst a1
      have hc0 := hc.evict c.mode rest
      obtain ⟨b1, b2, b3, b4, b5, b6⟩ := cleanAsync_ready (raw := raw) hc0 (good_evict hg rest) h1
      have hcore : Swap.Core c2 (some p) := by
        have hx := cleanAsync_pure (x := (fun _ => [], fun _ => [])) (dflt := []) h1
        have hd : Swap.detach (env []) (join { c with evict := rest } (fun _ => [], fun _ => [])) y.2 =
            some (p, join c2 (effs [] (fun _ => [], fun _ => []) l1)) := by
          have hev : ({ c with evict := rest }.blocks y.2).isEvictable = true := by
            have : (c1.blocks y.2).isEvictable = true := by
              unfold detach at h3
              split at h3
              · assumption
              · cases h3
            obtain ⟨b1, b2⟩ := cleanAsync_refs h1 y.2
            simp only [Swap.SB.isEvictable, Swap.SB.isAcquired, Swap.SB.isInternal, b1, b2] at this ⊢
            exact this
          unfold Swap.detach
          rw [if_pos (by exact hev), hx]
          have a2' : ((join c1 (effs [] (fun _ => [], fun _ => []) l1)).blocks y.2).int = some p := a2
          simp only [Option.bind_some, a2']
          rw [a3]; rfl
        exact core_split (Swap.detached_core (core_join hc0) (Swap.detach_inv pick_fresh hd))
      have hg2 : Good (Swap.giveBack c2 p) (K.nexts l1) := by
        rw [a3]
        refine b2.congr (fun i => ?_) rfl rfl
        show ((c1.set y.2 _).blocks i).ext = _
        simp only [Swap.St.set]; split
        · rename_i hi; subst hi; rfl
        · rfl
      obtain ⟨d1, d2, d3⟩ := ih (Swap.giveBack_core hcore) hg2 h5
      have hmax : (Swap.giveBack c2 p).max = c.max := by
        rw [a3]; exact b6
      rw [hmax] at d1
      simp only [List.append_nil]
      refine ⟨cans_append b1 d1, ?_, ?_⟩
      · rw [nexts_append]; exact d2
      · rw [nexts_append, d3, b3]; omega

/-- All commands of a call. -/
theorem plan_ready {c c' : Ctl} {op : Call} {a : Ans} {l : List Cmd} {K : Chk} (hc : Swap.Core c none) (hg : Good c K) (hn : K.n = 0)
    (hi : ∀ id e, op = .init id (some e) → K.own e) (hw : ∀ id x, op = .write id x → x.length = raw) (h : plan c op = some (a, c', l)) :
    K.cans c.max raw l ∧ Good c' (K.nexts l) ∧ (K.nexts l).n = 0 := by
  have hset : ∀ (id : Nat) (b : Swap.SB), b.ext = (c.blocks id).ext → Good (c.set id b) K := by
    intro id b hb
    refine hg.congr (fun i => ?_) rfl rfl
    simp only [Swap.St.set]; split
    · rename_i hi; subst hi; exact hb
    · rfl
  have hdeinit : ∀ {id : Nat} {c' : Ctl} {l : List Cmd}, deinit c id = some (c', l) → K.cans c.max raw l ∧ Good c' (K.nexts l) ∧ (K.nexts l).n = 0 := by
    intro id c' l h
    obtain ⟨c2, g1, g2⟩ := Option.map_eq_some_iff.1 h
    injection g2 with e1 e2
    subst e1
    have hb : id < c.n ∧ (∀ i, (c2.blocks i).ext = if i = id then none else (c.blocks i).ext) ∧ c2.n = c.n ∧ c2.held = c.held := by
      unfold Swap.deinit at g1
      split at g1
      · cases g1
      · rename_i hlt
        simp only at g1
        split at g1
        · cases g1
        · refine ⟨by omega, ?_⟩
          split at g1 <;> cases g1 <;> (split <;> refine ⟨fun i => ?_, rfl, rfl⟩ <;> simp only [Swap.giveBack, Swap.St.set] <;> split <;> rfl)
    obtain ⟨hlt, hb, hn', hh⟩ := hb
    cases he : (c.blocks id).ext with
    | none =>
      rw [he] at e2
      subst e2
      refine ⟨trivial, hg.congr (fun i => ?_) hn' hh, hn⟩
      rw [hb]; split
      · rename_i hi; subst hi; exact he.symm
      · rfl
    | some e =>
      rw [he] at e2
      subst e2
      refine ⟨⟨⟨hg.ext id e he, hn⟩, trivial⟩, ⟨?_, ?_, ?_⟩, hn⟩
      · intro i e' hi
        rw [hb] at hi
        split at hi
        · cases hi
        · rename_i hne
          refine ⟨?_, hg.ext i e' hi⟩
          intro e1; subst e1
          exact hne (hc.extOwn i id e' hi he)
      · rintro e' ⟨h1, h2⟩
        rw [live_iff]
        rcases live_iff.1 (hg.own e' h2) with ⟨i, g3, g4⟩ | g3
        · refine .inl ⟨i, by rw [hn']; exact g3, ?_⟩
          rw [hb, if_neg]
          · exact g4
          · intro e1; subst e1
            rw [he] at g4; injection g4 with g4
            exact h1 g4.symm
        · exact .inr (by rw [hh]; exact g3)
      · rintro e' ⟨_, h2⟩
        exact hg.full e' h2
  cases op with
  | acquire id u =>
    obtain ⟨⟨p, c1, l1⟩, h1, h2⟩ := Option.map_eq_some_iff.1 h
    cases h2
    unfold acquire at h1
    split at h1
    · cases h1
    · simp only at h1
      split at h1
      · rename_i q hq
        cases h1
        refine ⟨trivial, ?_, hn⟩
        refine hg.congr (fun i => ?_) ?_ ?_
        · simp only [Swap.St.set]; split
          · rename_i hi; subst hi; rfl
          · split <;> rfl
        · simp only [Swap.St.set]; split <;> rfl
        · simp only [Swap.St.set]; split <;> rfl
      · rename_i hq
        obtain ⟨⟨q, c2, l2⟩, g1, g2⟩ := Option.map_eq_some_iff.1 h1
        simp only at g2
        cases g2
        obtain ⟨a1, a2, a3, a4⟩ := getFree_ready (raw := raw) hc hg g1
        have hgood : Good (bringIn c2 id u p).1 (K.nexts l2) := by
          refine a2.congr (fun i => ?_) rfl rfl
          simp only [bringIn, Swap.St.set]; split
          · rename_i hi; subst hi; rfl
          · rfl
        have key : (K.nexts l2).cans c.max raw (bringIn c2 id u p).2 ∧ (K.nexts l2).nexts (bringIn c2 id u p).2 = K.nexts l2 := by
          unfold bringIn
          simp only
          split
          · exact ⟨trivial, rfl⟩
          · split
            · split
              · rename_i e he
                exact ⟨⟨⟨a2.ext _ _ he, a2.full _ (a2.ext _ _ he), a4, by omega⟩, trivial⟩, rfl⟩
              · exact ⟨trivial, rfl⟩
            · exact ⟨⟨⟨a4, by omega⟩, trivial⟩, rfl⟩
        refine ⟨cans_append a1 key.1, ?_, ?_⟩
        · rw [nexts_append, key.2]; exact hgood
        · rw [nexts_append, key.2]; omega
  | write id v =>
    simp only [plan] at h
    split at h
    · cases h
    · split at h
      · obtain ⟨p, h1, h2⟩ := Option.map_eq_some_iff.1 h
        cases h2
        exact ⟨⟨⟨core_lt hc h1, hn, hw id v rfl⟩, trivial⟩, hg, hn⟩
      · cases h
  | release id d pr =>
    obtain ⟨⟨c1, l1⟩, h1, h2⟩ := Option.map_eq_some_iff.1 h
    cases h2
    unfold release at h1
    split at h1
    · cases h1
    · simp only at h1
      split at h1
      · split at h1
        · cases h1; exact ⟨trivial, hset _ _ rfl, hn⟩
        · split at h1
          · cases h1; exact ⟨trivial, good_evict (hset id { c.blocks id with dirty := d || (c.blocks id).dirty, refs := (c.blocks id).refs - 1 } rfl) _, hn⟩
          · rename_i hx
            obtain ⟨⟨q, c2, l2⟩, g1, g2⟩ := Option.map_eq_some_iff.1 h1
            simp only at g2
            cases g2
            have hd : ((c.set id { c.blocks id with dirty := d || (c.blocks id).dirty, refs := (c.blocks id).refs - 1 }).blocks id).dirty = false := by
              simp only [Swap.set_same]
              simp only [Bool.or_eq_true, not_or] at hx
              simpa using hx.1
            obtain ⟨a1, a2, a3⟩ := detach_quiet hd g1
            subst a1
            refine ⟨trivial, ?_, hn⟩
            rw [a3]
            refine hg.congr (fun i => ?_) rfl rfl
            simp only [Swap.giveBack, Swap.St.set]
            split
            · rename_i hi; subst hi; simp
            · rfl
      · cases h1
  | deinit id =>
    obtain ⟨⟨c1, l1⟩, h1, h2⟩ := Option.map_eq_some_iff.1 h
    cases h2
    exact hdeinit h1
  | init id e =>
    obtain ⟨c1, h1, h2⟩ := Option.map_eq_some_iff.1 h
    cases h2
    unfold Swap.initialize_ at h1
    split at h1
    · cases h1
    · rename_i hlt
      simp only at h1
      split at h1
      · cases h1
      · rename_i hnot
        cases h1
        have hnone : (c.blocks id).ext = none := by
          simp only [Swap.SB.isInitialized, Swap.SB.isInternal, Swap.SB.isExternal, Bool.or_eq_true, not_or, Bool.and_eq_true] at hnot
          have h1 : (c.blocks id).int = none := by simpa using hnot.1
          have h2 : (c.blocks id).dirty = false := by
            cases hd : (c.blocks id).dirty with
            | false => rfl
            | true => exact absurd h1 (hc.dirtyInt id hd)
          have := hnot.2
          rw [h2] at this
          simpa using this
        refine ⟨trivial, ⟨?_, ?_, hg.full⟩, hn⟩
        · intro i e' hi'
          simp only [Swap.St.set] at hi'
          split at hi'
          · exact hi id e' (by rw [show e = some e' from hi'])
          · exact hg.ext i e' hi'
        · intro e' ho
          rw [live_iff]
          by_cases he : e = some e'
          · exact .inl ⟨id, by show id < c.n; omega, by simp [Swap.St.set, he]⟩
          · rcases live_iff.1 (hg.own e' ho) with ⟨i, g1, g2⟩ | g1
            · refine .inl ⟨i, g1, ?_⟩
              have : i ≠ id := by intro e1; subst e1; rw [hnone] at g2; cases g2
              simp only [Swap.St.set, this, if_false]; exact g2
            · refine .inr (List.mem_filter.2 ⟨g1, ?_⟩)
              simp only [bne_iff_ne, ne_eq]
              exact fun h => he h.symm
  | extract id =>
    obtain ⟨⟨o, c1, l1⟩, h1, h2⟩ := Option.map_eq_some_iff.1 h
    cases h2
    unfold extract at h1
    split at h1
    · cases h1
    · rename_i hlt
      simp only at h1
      obtain ⟨⟨c2, l2⟩, g1, g2⟩ := Option.map_eq_some_iff.1 h1
      simp only at g2
      cases g2
      have hfin : ∀ {c2 : Ctl} {K : Chk}, c2.n = c.n → Good c2 K → Good { (c2.set id { c2.blocks id with ext := none }) with held := (c2.blocks id).ext.toList ++ c2.held } K := by
        intro c2 K hn2 g
        refine ⟨?_, ?_, g.full⟩
        · intro i e hi
          simp only [Swap.St.set] at hi
          split at hi
          · cases hi
          · exact g.ext i e hi
        · intro e ho
          rw [live_iff]
          rcases live_iff.1 (g.own e ho) with ⟨i, g1, g2⟩ | g1
          · by_cases e1 : i = id
            · subst e1
              refine .inr (List.mem_append.2 (.inl ?_))
              rw [g2]; simp
            · exact .inl ⟨i, g1, by simp only [Swap.St.set, e1, if_false]; exact g2⟩
          · exact .inr (List.mem_append.2 (.inr g1))
      have hc1 : ∃ l', (if (c.blocks id).isEvictable = true then { c with evict := Swap.eraseEvict c.evict id } else c) = { c with evict := l' } := by
        split
        · exact ⟨_, rfl⟩
        · exact ⟨c.evict, rfl⟩
      obtain ⟨l', hl'⟩ := hc1
      rw [hl'] at g1
      split at g1
      · obtain ⟨⟨q, c3, l3⟩, g3, g4⟩ := Option.map_eq_some_iff.1 g1
        simp only at g4
        injection g4 with e1 e2
        subst e1 e2
        obtain ⟨a1, a2, a3, a4, a5, a6⟩ := detach_ready (raw := raw) (hc.evict c.mode l') (good_evict hg l') g3
        refine ⟨a1, hfin (by exact a4) (a2.congr (fun _ => rfl) rfl rfl), by omega⟩
      · cases g1
        exact ⟨trivial, hfin rfl (good_evict hg l'), hn⟩
  | flush =>
    obtain ⟨⟨c1, l1⟩, h1, h2⟩ := Option.map_eq_some_iff.1 h
    cases h2
    obtain ⟨⟨c2, n, l2⟩, g1, g2⟩ := Option.map_eq_some_iff.1 h1
    cases g2
    obtain ⟨a1, a2, a3⟩ := flushAux_ready (raw := raw) hc hg g1
    obtain ⟨b1, b2⟩ := wait_cans (max := c.max) (raw := raw) n (K := K.nexts l2) (by omega)
    refine ⟨cans_append a1 b1, ?_, ?_⟩
    · rw [nexts_append, b2]; exact ⟨a2.ext, a2.own, a2.full⟩
    · rw [nexts_append, b2]
  | alloc =>
    cases h
    refine ⟨trivial, ?_, hn⟩
    show Good (Swap.alloc c).2 K
    unfold Swap.alloc
    split
    · refine ⟨?_, ?_, hg.full⟩
      · intro i e hi
        simp only at hi
        split at hi
        · cases hi
        · exact hg.ext i e hi
      · intro e ho
        rw [live_iff]
        rcases live_iff.1 (hg.own e ho) with ⟨i, g1, g2⟩ | g1
        · refine .inl ⟨i, by show i < c.n + 1; omega, ?_⟩
          have : i ≠ c.n := by omega
          simp only [this, if_false]; exact g2
        · exact .inr g1
    · exact hg.congr (fun _ => rfl) rfl rfl
  | free id =>
    obtain ⟨⟨c1, l1⟩, h1, h2⟩ := Option.map_eq_some_iff.1 h
    cases h2
    obtain ⟨a1, a2, a3⟩ := hdeinit h1
    exact ⟨a1, a2.congr (fun _ => rfl) rfl rfl, a3⟩
  | retag m lst =>
    simp only [plan] at h
    split at h
    · cases h
      exact ⟨trivial, hg.congr (fun _ => rfl) rfl rfl, hn⟩
    · cases h

end Foxxll.SwapStore
