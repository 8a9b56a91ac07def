import Verif.Spec.SwapStore
import Verif.Proofs.BlockScheduler
/-
The commands of a call, executed at once, do what the model of the block scheduler does.
-/
namespace Foxxll.SwapStore
open Foxxll

abbrev Data := List UInt8

/-- Tables with data. -/
def join (c : Ctl) (x : (Nat → Data) × (Nat → Data)) : Swap.St Data :=
  { max := c.max, remaining := c.remaining, next := c.next, free := c.free, n := c.n, blocks := c.blocks, freeIds := c.freeIds,
    mode := c.mode, evict := c.evict, mem := x.1, disk := x.2, held := c.held }

def env (dflt : Data) : Swap.Env Data := ⟨pick, fun _ => dflt⟩

/-- Effect of a command on contents. -/
def eff (dflt : Data) (x : (Nat → Data) × (Nat → Data)) : Cmd → (Nat → Data) × (Nat → Data)
  | .write p e => (x.1, fun j => if j = e then x.1 p else x.2 j)
  | .read p e => (fun j => if j = p then x.2 e else x.1 j, x.2)
  | .fill p => (fun j => if j = p then dflt else x.1 j, x.2)
  | .put p v => (fun j => if j = p then v else x.1 j, x.2)
  | _ => x

def effs (dflt : Data) (x : (Nat → Data) × (Nat → Data)) (l : List Cmd) : (Nat → Data) × (Nat → Data) := l.foldl (eff dflt) x

variable {dflt : Data} {x : (Nat → Data) × (Nat → Data)}

@[simp] theorem effs_nil : effs dflt x [] = x := rfl
@[simp] theorem effs_cons {a : Cmd} {l : List Cmd} : effs dflt x (a :: l) = effs dflt (eff dflt x a) l := rfl
theorem effs_append {l m : List Cmd} : effs dflt x (l ++ m) = effs dflt (effs dflt x l) m := List.foldl_append ..
theorem effs_wait {n : Nat} : effs dflt x (List.replicate n .wait) = x := by
  induction n with
  | zero => rfl
  | succ n ih => rw [List.replicate_succ, effs_cons]; exact ih

theorem foldl_max_le (l : List Nat) (a : Nat) : a ≤ l.foldl Nat.max a ∧ ∀ y ∈ l, y ≤ l.foldl Nat.max a := by
  induction l generalizing a with
  | nil => simp
  | cons z l ih =>
    obtain ⟨h1, h2⟩ := ih (Nat.max a z)
    have e1 := Nat.le_max_left a z
    have e2 := Nat.le_max_right a z
    simp only [List.foldl_cons]
    refine ⟨Nat.le_trans e1 h1, ?_⟩
    intro y hy
    rcases List.mem_cons.1 hy with rfl | hy
    · exact Nat.le_trans e2 h1
    · exact h2 y hy

theorem pick_fresh (l : List Nat) : pick l ∉ l := by
  intro h
  have := (foldl_max_le l 0).2 _ h
  unfold pick at this
  omega

theorem cleanAsync_pure {c c' : Ctl} {id : Nat} {l : List Cmd} (h : cleanAsync c id = some (c', l)) :
    Swap.clean (env dflt) (join c x) id = some (join c' (effs dflt x l)) := by
  unfold cleanAsync at h
  unfold Swap.clean
  simp only at h ⊢
  split at h
  · rename_i hd
    have hd' : ((join c x).blocks id).dirty = true := hd
    rw [if_pos hd']
    split at h
    · cases h
    · rename_i p hp
      have hp' : ((join c x).blocks id).int = some p := hp
      split at h
      · rename_i e he
        have he' : ((join c x).blocks id).ext = some e := he
        cases h
        rw [hp', he']
        simp only [Option.getD_some]
        simp [join, Swap.St.set, eff, he, hp]
      · rename_i he
        have he' : ((join c x).blocks id).ext = none := he
        cases h
        rw [hp', he']
        simp only [Option.getD_none]
        simp [join, Swap.St.set, eff, env, Swap.St.live, hp]
        rfl
  · rename_i hd
    have hd' : ¬ ((join c x).blocks id).dirty = true := hd
    cases h
    rw [if_neg hd']
    rfl

theorem cleanSync_pure {c c' : Ctl} {id : Nat} {l : List Cmd} (h : cleanSync c id = some (c', l)) :
    Swap.clean (env dflt) (join c x) id = some (join c' (effs dflt x l)) := by
  unfold cleanSync at h
  obtain ⟨r, h1, h2⟩ := Option.map_eq_some_iff.1 h
  cases h2
  rw [cleanAsync_pure (x := x) (dflt := dflt) (c' := r.1) (l := r.2) h1, effs_append]
  split <;> rfl

theorem detach_pure {c c' : Ctl} {id p : Nat} {l : List Cmd} (h : detach c id = some (p, c', l)) :
    Swap.detach (env dflt) (join c x) id = some (p, join c' (effs dflt x l)) := by
  unfold detach at h
  split at h
  · rename_i he
    obtain ⟨r, h1, h2⟩ := Option.bind_eq_some_iff.1 h
    have he' : ((join c x).blocks id).isEvictable = true := he
    unfold Swap.detach
    rw [if_pos he', cleanSync_pure (x := x) (dflt := dflt) (c' := r.1) (l := r.2) h1]
    split at h2
    · cases h2
    · rename_i q hq
      cases h2
      have hq' : ((join r.1 (effs dflt x r.2)).blocks id).int = some p := hq
      simp only [Option.bind_some, hq']
      rfl
  · cases h

theorem getFreeBs_pure (c : Ctl) : Swap.getFreeBs (join c x) = ((Swap.getFreeBs c).1, join (Swap.getFreeBs c).2 x) := by
  unfold Swap.getFreeBs
  show (match c.free with | p :: rest => _ | [] => _) = _
  cases hf : c.free with
  | cons p rest => rfl
  | nil =>
    simp only
    show (if 0 < c.remaining then _ else _) = _
    by_cases h : 0 < c.remaining
    · simp only [h, if_true]; rfl
    · simp only [h, if_false]

theorem getFree_pure {c c' : Ctl} {p : Nat} {l : List Cmd} (h : getFree c = some (p, c', l)) :
    Swap.getFree (env dflt) (join c x) = some (p, join c' (effs dflt x l)) := by
  unfold getFree at h
  unfold Swap.getFree
  rw [getFreeBs_pure]
  split at h
  · rename_i q c1 e
    cases h
    simp only [e]
    rfl
  · rename_i c1 e
    simp only [e]
    split at h
    · cases h
    · rename_i y rest hp
      have hp' : Swap.popEvict (join c1 x).mode (join c1 x).evict = some (y, rest) := hp
      simp only [hp']
      exact detach_pure h

theorem bringIn_pure {c : Ctl} {id p : Nat} {u : Bool} (hi : (c.blocks id).int = none) :
    Swap.bringIn (env dflt) (join c x) id u p = join (bringIn c id u p).1 (effs dflt x (bringIn c id u p).2) := by
  unfold Swap.bringIn bringIn
  have e : (join c x).blocks = c.blocks := rfl
  simp only [e]
  cases u with
  | true =>
    simp only [if_true, effs_nil]
    simp only [join, Swap.St.set]
    congr 1
    funext j
    by_cases h : j = p
    · simp [h]
    · simp [h]
  | false =>
    simp only [Bool.false_eq_true, if_false, Bool.not_false, Bool.and_true]
    by_cases hin : (c.blocks id).isInitialized = true
    · simp only [hin, if_true]
      have : ∃ y, (c.blocks id).ext = some y := by
        simp [Swap.SB.isInitialized, Swap.SB.isInternal, Swap.SB.isExternal, hi] at hin
        exact Option.isSome_iff_exists.1 hin.1
      obtain ⟨y, hy⟩ := this
      simp only [hy, Option.map_some, Option.getD_some, effs_cons, effs_nil, eff]
      rfl
    · simp only [hin, Bool.false_eq_true, if_false, effs_cons, effs_nil, eff]
      rfl

theorem detach_other {c c' : Ctl} {id p j : Nat} {l : List Cmd} (h : detach c id = some (p, c', l)) (hj : (c.blocks j).int = none) : (c'.blocks j).int = none := by
  unfold detach at h
  split at h
  · obtain ⟨r, h1, h2⟩ := Option.bind_eq_some_iff.1 h
    have hr : (r.1.blocks j).int = none := by
      unfold cleanSync at h1
      obtain ⟨t, g1, g2⟩ := Option.map_eq_some_iff.1 h1
      have e : r.1 = t.1 := by rw [← g2]
      rw [e]
      unfold cleanAsync at g1
      simp only at g1
      split at g1
      · split at g1
        · cases g1
        · rename_i q hq
          have hne : j ≠ id := by
            intro e; subst e; rw [hj] at hq; cases hq
          split at g1
          · cases g1
            simp only [Swap.St.set, hne, if_false]; exact hj
          · cases g1
            simp only [Swap.St.set, hne, if_false]; exact hj
      · cases g1; exact hj
    split at h2
    · cases h2
    · cases h2
      simp only [Swap.St.set]
      split
      · rfl
      · exact hr
  · cases h

theorem getFreeBs_blocks (c : Ctl) : (Swap.getFreeBs c).2.blocks = c.blocks := by
  unfold Swap.getFreeBs
  split
  · rfl
  · split <;> rfl

theorem getFree_other {c c' : Ctl} {p j : Nat} {l : List Cmd} (h : getFree c = some (p, c', l)) (hj : (c.blocks j).int = none) : (c'.blocks j).int = none := by
  have hb := getFreeBs_blocks c
  unfold getFree at h
  split at h
  · rename_i q c1 e
    cases h
    rw [e] at hb
    rw [show c'.blocks = c.blocks from hb]; exact hj
  · rename_i c1 e
    rw [e] at hb
    split at h
    · cases h
    · refine detach_other h ?_
      show (c1.blocks j).int = none
      rw [show c1.blocks = c.blocks from hb]; exact hj

theorem acquire_pure {c c' : Ctl} {id p : Nat} {u : Bool} {l : List Cmd} (h : acquire c id u = some (p, c', l)) :
    Swap.acquire (env dflt) (join c x) id u = some (p, join c' (effs dflt x l)) := by
  unfold acquire at h
  unfold Swap.acquire
  have e : (join c x).blocks = c.blocks := rfl
  have en : (join c x).n = c.n := rfl
  rw [en, e]
  split at h
  · cases h
  · rename_i hn
    rw [if_neg hn]
    simp only at h ⊢
    split at h
    · rename_i q hq
      cases h
      simp only [hq]
      split <;> rfl
    · rename_i hq
      simp only [hq]
      obtain ⟨r, h1, h2⟩ := Option.map_eq_some_iff.1 h
      obtain ⟨q, c1, l1⟩ := r
      simp only at h2
      cases h2
      rw [getFree_pure (x := x) (dflt := dflt) h1]
      simp only [Option.map_some, effs_append]
      rw [bringIn_pure (getFree_other h1 hq)]

theorem release_pure {c c' : Ctl} {id : Nat} {d : Bool} {pr : Swap.SB → Nat} {l : List Cmd} (h : release c id d pr = some (c', l)) :
    Swap.releaseWith (env dflt) (join c x) id d pr = some (join c' (effs dflt x l)) := by
  unfold release at h
  unfold Swap.releaseWith
  have e : (join c x).blocks = c.blocks := rfl
  have en : (join c x).n = c.n := rfl
  rw [en, e]
  split at h
  · cases h
  · rename_i hn
    rw [if_neg hn]
    simp only at h ⊢
    split at h
    · rename_i ha
      rw [if_pos ha]
      split at h
      · rename_i hb
        rw [if_pos hb]
        cases h; rfl
      · rename_i hb
        rw [if_neg hb]
        split at h
        · rename_i hx
          rw [if_pos hx]
          cases h; rfl
        · rename_i hx
          rw [if_neg hx]
          obtain ⟨r, h1, h2⟩ := Option.map_eq_some_iff.1 h
          obtain ⟨q, c1, l1⟩ := r
          cases h2
          have := detach_pure (x := x) (dflt := dflt) h1
          rw [show (join c x).set id { c.blocks id with dirty := d || (c.blocks id).dirty, refs := (c.blocks id).refs - 1 } =
            join (c.set id { c.blocks id with dirty := d || (c.blocks id).dirty, refs := (c.blocks id).refs - 1 }) x from rfl, this]
          rfl
    · cases h

theorem deinit_pure {c c' : Ctl} {id : Nat} (h : Swap.deinit c id = some c') : Swap.deinit (join c x) id = some (join c' x) := by
  unfold Swap.deinit at h ⊢
  have e : (join c x).blocks = c.blocks := rfl
  have en : (join c x).n = c.n := rfl
  rw [en, e]
  split at h
  · cases h
  · rename_i hn
    rw [if_neg hn]
    simp only at h ⊢
    split at h
    · cases h
    · rename_i ha
      rw [if_neg ha]
      split at h
      · rename_i p hp
        cases h
        split <;> rfl
      · rename_i hp
        cases h
        split <;> rfl

theorem extract_pure {c c' : Ctl} {id : Nat} {o : Option Nat} {l : List Cmd} (h : extract c id = some (o, c', l)) :
    Swap.extract (env dflt) (join c x) id = some (o, join c' (effs dflt x l)) := by
  unfold extract at h
  unfold Swap.extract Swap.putOut
  have e : (join c x).blocks = c.blocks := rfl
  have en : (join c x).n = c.n := rfl
  rw [en, e]
  split at h
  · cases h
  · rename_i hn
    rw [if_neg hn]
    simp only at h ⊢
    have key : ∀ c1 : Ctl, c1.blocks = c.blocks → (∃ t, t = (if (c.blocks id).isInternal = true then (detach c1 id).map fun r => (Swap.giveBack r.2.1 r.1, r.2.2) else some (c1, [])) ∧
        t.map (fun r => ((r.1.blocks id).ext, ({ (r.1.set id { r.1.blocks id with ext := none }) with held := (r.1.blocks id).ext.toList ++ r.1.held } : Ctl), r.2)) = some (o, c', l)) →
        ((if (c.blocks id).isInternal = true then (Swap.detach (env dflt) (join c1 x) id).map fun r => Swap.giveBack r.2 r.1 else some (join c1 x)).map fun s1 =>
          ((s1.blocks id).ext, ({ (s1.set id { s1.blocks id with ext := none }) with held := (s1.blocks id).ext.toList ++ s1.held } : Swap.St Data))) =
          some (o, join c' (effs dflt x l)) := by
      rintro c1 hc ⟨t, ht, h⟩
      split at ht
      · rename_i hi
        rw [if_pos hi]
        obtain ⟨r, h1, h2⟩ := Option.map_eq_some_iff.1 h
        subst ht
        obtain ⟨t, g1, g2⟩ := Option.map_eq_some_iff.1 h1
        obtain ⟨q, c1, l1⟩ := t
        rw [detach_pure (x := x) (dflt := dflt) g1]
        subst g2
        cases h2
        rfl
      · rename_i hi
        rw [if_neg hi]
        subst ht
        cases h
        rfl
    by_cases hev : (c.blocks id).isEvictable = true
    · simp only [hev, if_true] at h ⊢
      exact key { c with evict := Swap.eraseEvict c.evict id } rfl ⟨_, rfl, h⟩
    · simp only [hev, if_false, Bool.false_eq_true] at h ⊢
      exact key c rfl ⟨_, rfl, h⟩

theorem cleanAsync_clean {c c' : Ctl} {id : Nat} {l : List Cmd} (h : cleanAsync c id = some (c', l)) : (c'.blocks id).dirty = false := by
  unfold cleanAsync at h
  simp only at h
  split at h
  · split at h
    · cases h
    · split at h <;> cases h <;> simp
  · rename_i hd
    cases h; simpa using hd

/-- A block that is not dirty is detached without commands. -/
theorem detach_quiet {c c' : Ctl} {id p : Nat} {l : List Cmd} (hd : (c.blocks id).dirty = false) (h : detach c id = some (p, c', l)) :
    l = [] ∧ (c.blocks id).int = some p ∧ c' = c.set id { c.blocks id with int := none } := by
  unfold detach at h
  split at h
  · simp only [cleanSync, cleanAsync, hd, Bool.false_eq_true, if_false, Option.map_some, Option.bind_some] at h
    split at h
    · cases h
    · rename_i q hq
      injection h with h
      injection h with h1 h
      injection h with h2 h3
      subst h1 h2
      refine ⟨by rw [← h3]; rfl, hq, ?_⟩
      congr 1
      rw [← hd]
  · cases h

theorem cleanAsync_refs {c c' : Ctl} {id : Nat} {l : List Cmd} (h : cleanAsync c id = some (c', l)) (j : Nat) :
    (c'.blocks j).refs = (c.blocks j).refs ∧ (c'.blocks j).int = (c.blocks j).int := by
  unfold cleanAsync at h
  simp only at h
  split at h
  · split at h
    · cases h
    · split at h <;> cases h <;> simp only [Swap.St.set] <;> split <;> simp_all
  · cases h; exact ⟨rfl, rfl⟩

theorem flushAux_pure {k n : Nat} {c c' : Ctl} {l : List Cmd} (h : flushAux k c = some (c', n, l)) :
    Swap.flushAux (env dflt) k (join c x) = some (join c' (effs dflt x l)) := by
  induction k generalizing c c' n l x with
  | zero => cases h; rfl
  | succ k ih =>
    unfold flushAux at h
    unfold Swap.flushAux
    have e1 : Swap.popEvict (join c x).mode (join c x).evict = Swap.popEvict c.mode c.evict := rfl
    rw [e1]
    split at h
    · rename_i hp
      cases h
      simp only [hp]; rfl
    · rename_i y rest hp
      simp only [hp]
      obtain ⟨⟨c1, l1⟩, h1, h2⟩ := Option.bind_eq_some_iff.1 h
      obtain ⟨⟨p, c2, l2⟩, h3, h4⟩ := Option.bind_eq_some_iff.1 h2
      obtain ⟨⟨c3, n3, l3⟩, h5, h6⟩ := Option.map_eq_some_iff.1 h4
      cases h6
      simp only at h1 h3 h5
      obtain ⟨a1, a2, a3⟩ := detach_quiet (cleanAsync_clean h1) h3
      subst a1
      have hev : ({ c with evict := rest }.blocks y.2).isEvictable = true := by
        have : (c1.blocks y.2).isEvictable = true := by
          unfold detach at h3
          split at h3
          · assumption
          · cases h3
        obtain ⟨b1, b2⟩ := cleanAsync_refs h1 y.2
        simp only [Swap.SB.isEvictable, Swap.SB.isAcquired, Swap.SB.isInternal, b1, b2] at this ⊢
        exact this
      have hd : Swap.detach (env dflt) { join c x with evict := rest } y.2 = some (p, join c2 (effs dflt x l1)) := by
        have hc := cleanAsync_pure (x := x) (dflt := dflt) h1
        rw [show ({ join c x with evict := rest } : Swap.St Data) = join { c with evict := rest } x from rfl]
        unfold Swap.detach
        rw [if_pos (by exact hev), hc]
        have a2' : ((join c1 (effs dflt x l1)).blocks y.2).int = some p := a2
        simp only [Option.bind_some, a2']
        rw [a3]; rfl
      rw [hd]
      simp only [Option.bind_some, List.append_nil, effs_append]
      exact ih h5

/-- A call. -/
theorem plan_pure {c c' : Ctl} {op : Call} {a : Ans} {l : List Cmd} (h : plan c op = some (a, c', l)) :
    ∃ r, Swap.step (env dflt) (join c x) op.toOp = some (r, join c' (effs dflt x l)) ∧
      (match a with
        | .unit => r = .unit
        | .int p => r = .data ((effs dflt x l).1 p)
        | .ext e => r = .ext e
        | .id n => r = .id n) := by
  cases op with
  | acquire id u =>
    obtain ⟨⟨p, c1, l1⟩, h1, h2⟩ := Option.map_eq_some_iff.1 h
    cases h2
    refine ⟨_, ?_, rfl⟩
    simp only [Call.toOp, Swap.step, acquire_pure (x := x) (dflt := dflt) h1, Option.map_some]
    rfl
  | write id v =>
    simp only [plan] at h
    have e : (join c x).blocks = c.blocks := rfl
    have en : (join c x).n = c.n := rfl
    simp only [Call.toOp, Swap.step, Swap.write, e, en]
    split at h
    · cases h
    · rename_i hn
      rw [if_neg hn]
      split at h
      · rename_i ha
        rw [if_pos ha]
        obtain ⟨p, h1, h2⟩ := Option.map_eq_some_iff.1 h
        cases h2
        rw [h1]
        exact ⟨_, rfl, rfl⟩
      · cases h
  | release id d pr =>
    obtain ⟨⟨c1, l1⟩, h1, h2⟩ := Option.map_eq_some_iff.1 h
    cases h2
    exact ⟨.unit, by simp only [Call.toOp, Swap.step, release_pure (x := x) (dflt := dflt) h1, Option.map_some], rfl⟩
  | deinit id =>
    obtain ⟨⟨c1, l1⟩, h1, h2⟩ := Option.map_eq_some_iff.1 h
    cases h2
    obtain ⟨c2, g1, g2⟩ := Option.map_eq_some_iff.1 h1
    cases g2
    refine ⟨.unit, ?_, rfl⟩
    simp only [Call.toOp, Swap.step, deinit_pure (x := x) g1, Option.map_some]
    split <;> rfl
  | init id e =>
    obtain ⟨c1, h1, h2⟩ := Option.map_eq_some_iff.1 h
    cases h2
    refine ⟨.unit, ?_, rfl⟩
    simp only [Call.toOp, Swap.step, effs_nil]
    have : Swap.initialize_ (join c x) id e = some (join c' x) := by
      unfold Swap.initialize_ at h1 ⊢
      have e' : (join c x).blocks = c.blocks := rfl
      have en : (join c x).n = c.n := rfl
      rw [en, e']
      split at h1
      · cases h1
      · rename_i hn
        rw [if_neg hn]
        simp only at h1 ⊢
        split at h1
        · cases h1
        · rename_i hi
          rw [if_neg hi]
          cases h1; rfl
    rw [this]; rfl
  | extract id =>
    obtain ⟨⟨o, c1, l1⟩, h1, h2⟩ := Option.map_eq_some_iff.1 h
    cases h2
    exact ⟨.ext o, by simp only [Call.toOp, Swap.step, extract_pure (x := x) (dflt := dflt) h1, Option.map_some], rfl⟩
  | flush =>
    obtain ⟨⟨c1, l1⟩, h1, h2⟩ := Option.map_eq_some_iff.1 h
    cases h2
    obtain ⟨⟨c2, n, l2⟩, g1, g2⟩ := Option.map_eq_some_iff.1 h1
    cases g2
    refine ⟨.unit, ?_, rfl⟩
    have : Swap.flush (env dflt) (join c x) = some (join c2 (effs dflt x l2)) := flushAux_pure g1
    simp only [Call.toOp, Swap.step, this, Option.map_some, effs_append, effs_wait]
  | alloc =>
    cases h
    refine ⟨_, ?_, rfl⟩
    simp only [Call.toOp, Swap.step, effs_nil]
    have : Swap.alloc (join c x) = ((Swap.alloc c).1, join (Swap.alloc c).2 x) := by
      obtain ⟨_, _, _, _, _, _, fi, _, _, _, _, _⟩ := c
      cases fi <;> rfl
    rw [this]
  | free id =>
    obtain ⟨⟨c1, l1⟩, h1, h2⟩ := Option.map_eq_some_iff.1 h
    cases h2
    obtain ⟨c2, g1, g2⟩ := Option.map_eq_some_iff.1 h1
    cases g2
    refine ⟨.unit, ?_, rfl⟩
    simp only [Call.toOp, Swap.step, Swap.freeBlock, deinit_pure (x := x) g1, Option.map_some]
    split <;> rfl
  | retag m lst =>
    simp only [plan] at h
    simp only [Call.toOp, Swap.step]
    split at h
    · rename_i hp
      cases h
      exact ⟨.unit, if_pos (by exact hp), rfl⟩
    · cases h

end Foxxll.SwapStore
