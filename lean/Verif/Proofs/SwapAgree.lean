import Verif.Proofs.SwapFailAux
/-
The block scheduler with failures (`SwapFail`) agrees with the one without (`Swap`) if nothing fails.
-/
namespace Foxxll.SwapFail
open Foxxll.Swap

variable {D : Type}

/-- Nothing fails. -/
structure Calm (E : Env D) : Prop where
  ans : ∀ k, E.ans k = .ok
  space : ∀ k, E.space k = true
  mem : ∀ k, E.mem k = true

/-- The two models give the same result and state; no request is left behind. -/
def Agrees {α : Type} : R D α → Option (α × St D) → Prop
  | .ok a s, some x => a = x.1 ∧ s.st = x.2 ∧ s.pend = []
  | .ub, none => True
  | _, _ => False

theorem Agrees.bind {α β : Type} {x : R D α} {o : Option (α × St D)} (h : Agrees x o) {f : α → FSt D → R D β} {g : α × St D → Option (β × St D)}
    (hf : ∀ a s, o = some (a, s.st) → s.pend = [] → Agrees (f a s) (g (a, s.st))) : Agrees (x.bind f) (o.bind g) := by
  cases x with
  | ok a s =>
    cases o with
    | none => exact h.elim
    | some y =>
      obtain ⟨b, t⟩ := y
      obtain ⟨h1, h2, h3⟩ := h
      simp only at h1 h2
      subst h1 h2
      exact hf a s rfl h3
  | throws l s => cases o <;> exact h.elim
  | ub =>
    cases o with
    | none => trivial
    | some y => exact h.elim

theorem Agrees.map {α β : Type} {x : R D α} {o : Option (α × St D)} (h : Agrees x o) {f : α → FSt D → β} {g : α × St D → β × St D}
    (hf : ∀ a s, g (a, s.st) = (f a s, s.st)) : Agrees (x.map f) (o.map g) := by
  have := Agrees.bind (β := β) h (f := fun a s => .ok (f a s) s) (g := fun y => some (g y)) (fun a s _ hp => by
    show f a s = _ ∧ s.st = _ ∧ _
    rw [hf]
    exact ⟨rfl, rfl, hp⟩)
  rw [Option.map_eq_bind]
  exact this

theorem settle_nil (E : Env D) {s : FSt D} (h : s.pend = []) (e : Nat) : settle E s e = s := by
  obtain ⟨st, k, pend⟩ := s
  simp only at h
  subst h
  rfl

theorem writeSync_quiet {E : Env D} (q : Calm E) {s : FSt D} (h : s.pend = []) (id p e : Nat) :
    writeSync E s id p e = .ok () { s with k := s.k + 1, st := setDisk s.st e (s.st.mem p) } := by
  simp only [writeSync, settle_nil E h, q.ans]

theorem readSync_quiet {E : Env D} (q : Calm E) {s : FSt D} (h : s.pend = []) (id e p : Nat) :
    readSync E s id e p = .ok () { s with k := s.k + 1, st := setMem s.st p (s.st.disk e) } := by
  simp only [readSync, settle_nil E h, q.ans, ite_self]

theorem set_set (s : St D) (i : Nat) (b b' : SB) : (s.set i b).set i b' = s.set i b' := by
  simp only [St.set]
  congr 1
  funext j
  split <;> rfl

/-- The state after the block got its external block and is not dirty any more. -/
theorem startClean_quiet {E : Env D} (q : Calm E) (s : FSt D) (id : Nat) : ∃ k, startClean E s id =
    .ok ((s.st.blocks id).ext.getD (E.pick s.st.live))
      { s with k := k, st := s.st.set id { s.st.blocks id with ext := some ((s.st.blocks id).ext.getD (E.pick s.st.live)), dirty := false } } := by
  cases he : (s.st.blocks id).ext with
  | some e =>
    refine ⟨s.k, ?_⟩
    simp only [startClean, needExt, he, R.bind, Option.getD_some]
  | none =>
    refine ⟨s.k + 1, ?_⟩
    simp only [startClean, needExt, he, q.space, R.bind, if_true, Option.getD_none, set_set, set_same]

theorem clean_agrees {E : Env D} (q : Calm E) {s : FSt D} (h : s.pend = []) (id : Nat) :
    Agrees (clean E s id) ((Swap.clean E.toEnv s.st id).map fun t => ((), t)) := by
  unfold clean Swap.clean
  cases hd : (s.st.blocks id).dirty with
  | false => simp only [hd, Bool.false_eq_true, if_false, Option.map_some]; exact ⟨rfl, rfl, h⟩
  | true =>
    obtain ⟨k, hk⟩ := startClean_quiet q s id
    simp only [hd, if_true, hk, R.bind, set_same]
    cases hi : (s.st.blocks id).int with
    | none => simp only [Option.map_none]; exact True.intro
    | some p =>
      simp only [Option.map_some]
      rw [writeSync_quiet q (by exact h)]
      exact ⟨rfl, rfl, h⟩

theorem takeInt_agrees {s : FSt D} (h : s.pend = []) (id : Nat) :
    Agrees (takeInt s id) (match (s.st.blocks id).int with
      | none => none
      | some p => some (p, s.st.set id { s.st.blocks id with int := none })) := by
  unfold takeInt
  cases (s.st.blocks id).int with
  | none => trivial
  | some p => exact ⟨rfl, rfl, h⟩

theorem detach_agrees {E : Env D} (q : Calm E) {s : FSt D} (h : s.pend = []) (id : Nat) :
    Agrees (detach E s id) (Swap.detach E.toEnv s.st id) := by
  unfold detach Swap.detach
  split
  · have := Agrees.bind (clean_agrees q h id) (f := fun _ s1 => takeInt s1 id) (g := fun y => match (y.2.blocks id).int with
      | none => none
      | some p => some (p, y.2.set id { y.2.blocks id with int := none })) (fun _ s1 _ h1 => takeInt_agrees h1 id)
    rw [Option.bind_map] at this
    exact this
  · trivial

theorem getFree_agrees {E : Env D} (q : Calm E) {s : FSt D} (h : s.pend = []) : Agrees (getFree E s) (Swap.getFree E.toEnv s.st) := by
  unfold getFree
  cases hf : s.st.free with
  | cons p rest =>
    simp only [getFreeBs, hf, Swap.getFree, Swap.getFreeBs, R.bind]
    exact ⟨rfl, rfl, h⟩
  | nil =>
    by_cases hr : 0 < s.st.remaining
    · simp only [getFreeBs, hf, Swap.getFree, Swap.getFreeBs, hr, q.mem, R.bind, if_true]
      exact ⟨rfl, rfl, h⟩
    · simp only [getFreeBs, hf, Swap.getFree, Swap.getFreeBs, hr, R.bind, if_false]
      cases popEvict s.st.mode s.st.evict with
      | none => exact True.intro
      | some xr =>
        simp only
        exact detach_agrees q (by exact h) xr.1.2

/-- A block without internal block is not changed when another one is evicted. -/
theorem detach_other {E : Swap.Env D} {s t : St D} {id i p : Nat} (h : Swap.detach E s i = some (p, t)) (hi : (s.blocks id).int = none) : t.blocks id = s.blocks id := by
  unfold Swap.detach at h
  split at h
  · rename_i he
    have hne : id ≠ i := by
      rintro rfl
      simp [SB.isEvictable, SB.isInternal, hi] at he
    cases hd : (s.blocks i).dirty <;> cases hp : (s.blocks i).int <;> simp [Swap.clean, hd, hp] at h
    · rw [← h.2]
      simp [St.set, hne]
    · rw [← h.2]
      simp [St.set, hne]
  · cases h

theorem getFree_other {E : Swap.Env D} {s t : St D} {id p : Nat} (h : Swap.getFree E s = some (p, t)) (hi : (s.blocks id).int = none) : t.blocks id = s.blocks id := by
  unfold Swap.getFree Swap.getFreeBs at h
  split at h
  · rename_i x s1 hx
    cases h
    split at hx
    · cases hx; rfl
    · split at hx
      · cases hx; rfl
      · cases hx
  · rename_i s1 hx
    have : s1 = s := by
      split at hx
      · cases hx
      · split at hx
        · cases hx
        · cases hx; rfl
    subst this
    split at h
    · cases h
    · have := detach_other h hi
      exact this

theorem setMem_same (s : St D) (p : Nat) : setMem s p (s.mem p) = s := by
  obtain ⟨_, _, _, _, _, _, _, _, _, mem, _, _⟩ := s
  simp only [setMem]
  congr 1
  funext j
  split
  · rename_i h; rw [h]
  · rfl

theorem acquire_agrees {E : Env D} (q : Calm E) {s : FSt D} (h : s.pend = []) (id : Nat) (u : Bool) :
    Agrees (acquire E s id u) (Swap.acquire E.toEnv s.st id u) := by
  unfold acquire Swap.acquire
  split
  · trivial
  · cases hi : (s.st.blocks id).int with
    | some p =>
      simp only [hi]
      split
      · exact ⟨rfl, by simp [addRef, hi], h⟩
      · exact ⟨rfl, by simp [addRef, hi], h⟩
    | none =>
      simp only [hi]
      rw [Option.map_eq_bind]
      split
      · rename_i hin
        refine Agrees.bind (getFree_agrees q h) (fun p s1 hg h1 => ?_)
        have hb := getFree_other hg hi
        cases u with
        | true =>
          simp only [if_true]
          refine ⟨rfl, ?_, h1⟩
          simp only [addRef, attach, bringIn, set_set, set_same, if_true, Bool.not_true, Bool.and_false, Bool.false_eq_true, if_false]
          exact (setMem_same _ p).symm
        | false =>
          have hex : ∃ e, (s.st.blocks id).ext = some e := by
            cases he : (s.st.blocks id).ext with
            | some e => exact ⟨e, rfl⟩
            | none => simp [SB.isInitialized, SB.isInternal, SB.isExternal, hi, he] at hin
          obtain ⟨e, he⟩ := hex
          simp only [Bool.false_eq_true, if_false, attach, set_same, hb, he]
          rw [readSync_quiet q (by exact h1)]
          refine ⟨rfl, ?_, h1⟩
          simp only [bringIn, addRef, setMem, Bool.false_eq_true, if_false, hb, hin, he, St.set, if_true, Option.map_some, Option.getD_some, Bool.not_false, Bool.and_self]
          simp
          funext j
          split <;> simp_all
      · rename_i hin
        refine Agrees.bind (getFree_agrees q h) (fun p s1 hg h1 => ?_)
        have hb := getFree_other hg hi
        refine ⟨rfl, ?_, ?_⟩
        · have hin' : (s1.st.blocks id).isInitialized = false := by rw [hb]; simpa using hin
          cases u with
          | true =>
            simp only [addRef, attach, bringIn, set_set, set_same, if_true, Bool.not_true, Bool.and_false, Bool.false_eq_true, if_false]
            exact (setMem_same _ p).symm
          | false =>
            simp only [addRef, attach, bringIn, set_set, set_same, hin', Bool.false_eq_true, if_false, Bool.false_and]
            rfl
        · cases u <;> exact h1

theorem release_agrees {E : Env D} (q : Calm E) {s : FSt D} (h : s.pend = []) (id : Nat) (d : Bool) (pr : SB → Nat) :
    Agrees (release E s id d pr) ((Swap.releaseWith E.toEnv s.st id d pr).map fun t => ((), t)) := by
  unfold release Swap.releaseWith
  split
  · trivial
  · simp only
    split
    · split
      · exact ⟨rfl, rfl, h⟩
      · split
        · exact ⟨rfl, rfl, h⟩
        · rw [Option.map_map, Option.map_eq_bind]
          refine Agrees.bind (detach_agrees q (by exact h) id) (fun p s2 _ h2 => ?_)
          exact ⟨rfl, rfl, h2⟩
    · trivial

theorem extract_agrees {E : Env D} (q : Calm E) {s : FSt D} (h : s.pend = []) (id : Nat) : Agrees (extract E s id) (Swap.extract E.toEnv s.st id) := by
  unfold extract Swap.extract
  split
  · trivial
  · have key : Agrees (if (s.st.blocks id).isInternal then
        (detach E (if (s.st.blocks id).isEvictable then { s with st := { s.st with evict := eraseEvict s.st.evict id } } else s) id).bind fun p s2 => .ok () (giveBack s2 p)
        else .ok () (if (s.st.blocks id).isEvictable then { s with st := { s.st with evict := eraseEvict s.st.evict id } } else s))
        ((putOut E.toEnv s.st id).map fun t => ((), t)) := by
      have h1 : (if (s.st.blocks id).isEvictable then { s with st := { s.st with evict := eraseEvict s.st.evict id } } else s).pend = [] := by
        split <;> exact h
      have h2 : (if (s.st.blocks id).isEvictable then { s with st := { s.st with evict := eraseEvict s.st.evict id } } else s).st =
          if (s.st.blocks id).isEvictable then { s.st with evict := eraseEvict s.st.evict id } else s.st := by split <;> rfl
      unfold putOut
      simp only
      split
      · rw [Option.map_map, Option.map_eq_bind, ← h2]
        refine Agrees.bind (detach_agrees q h1 id) (fun p s2 _ h2 => ?_)
        exact ⟨rfl, rfl, h2⟩
      · rw [Option.map_some]
        exact ⟨rfl, h2, h1⟩
    have := Agrees.bind key (f := fun _ s2 => .ok (s2.st.blocks id).ext
      { s2 with st := { (s2.st.set id { s2.st.blocks id with ext := none }) with held := (s2.st.blocks id).ext.toList ++ s2.st.held } })
      (g := fun y => some ((y.2.blocks id).ext, { (y.2.set id { y.2.blocks id with ext := none }) with held := (y.2.blocks id).ext.toList ++ y.2.held }))
      (fun _ s1 _ h1 => ⟨rfl, rfl, h1⟩)
    rw [Option.bind_map] at this
    rw [Option.map_eq_bind]
    exact this

/-! ### `flush` -/

/-- The requests of `flush` served in order. -/
def put (mem : Nat → D) (l : List Made) (disk : Nat → D) : Nat → D := l.foldl (fun d m j => if j = m.e then mem m.p else d j) disk

theorem put_not (mem : Nat → D) (l : List Made) : ∀ (disk : Nat → D) {j : Nat}, j ∉ l.map (·.e) → put mem l disk j = disk j := by
  induction l with
  | nil => intro disk j _; rfl
  | cons m l ih =>
    intro disk j h
    simp only [List.map_cons, List.mem_cons, not_or] at h
    show put mem l _ j = _
    rw [ih _ h.2]
    exact if_neg h.1

theorem put_mem (mem : Nat → D) (l : List Made) : ∀ (disk : Nat → D), (l.map (·.e)).Nodup → ∀ m ∈ l, put mem l disk m.e = mem m.p := by
  induction l with
  | nil => intro disk _ m h; cases h
  | cons x l ih =>
    intro disk hn m hm
    rw [List.map_cons, List.nodup_cons] at hn
    show put mem l _ m.e = _
    rcases List.mem_cons.1 hm with rfl | hm
    · rw [put_not mem l _ hn.1]
      exact if_pos rfl
    · exact ih _ hn.2 m hm

theorem put_reverse (mem : Nat → D) (l : List Made) (disk : Nat → D) (hn : (l.map (·.e)).Nodup) : put mem l.reverse disk = put mem l disk := by
  have hr : (l.reverse.map (·.e)).Nodup := by
    rw [List.map_reverse]
    exact (List.reverse_perm _).nodup_iff.2 hn
  funext j
  by_cases h : j ∈ l.map (·.e)
  · obtain ⟨m, hm, rfl⟩ := List.mem_map.1 h
    rw [put_mem mem l disk hn m hm, put_mem mem l.reverse disk hr m (List.mem_reverse.2 hm)]
  · rw [put_not mem l disk h, put_not mem l.reverse disk (by simpa using h)]

theorem put_append (mem : Nat → D) (l l' : List Made) (disk : Nat → D) : put mem (l ++ l') disk = put mem l' (put mem l disk) := by
  simp [put, List.foldl_append]

/-- The state with other contents of the external blocks. -/
def onDisk (s : St D) (d : Nat → D) : St D := { s with disk := d }

/-- The result of a block taken out by `flush`, against a scheduler that writes at once. -/
def FlushOk (s : FSt D) (l : List Made) (d : Nat → D) : R D (List Made) → Option (Nat × St D) → Prop
  | .ok l1 s1, some x => s1.pend = [] ∧ s1.st.disk = s.st.disk ∧ s1.st.mem = s.st.mem ∧ ∃ new, l1 = l ++ new ∧
      Swap.giveBack x.2 x.1 = onDisk s1.st (put s.st.mem new d)
  | .ub, none => True
  | _, _ => False

theorem flushOne_agrees {E : Env D} (q : Calm E) {s : FSt D} (h : s.pend = []) (id : Nat) (l : List Made) (d : Nat → D) :
    FlushOk s l d (flushOne E s id l) (Swap.detach E.toEnv (onDisk s.st d) id) := by
  unfold flushOne
  obtain ⟨k, hk⟩ := startClean_quiet q s id
  have hb : (onDisk s.st d).blocks = s.st.blocks := rfl
  have hl : (onDisk s.st d).live = s.st.live := rfl
  cases he : (s.st.blocks id).isEvictable with
  | false =>
    have hs : Swap.detach E.toEnv (onDisk s.st d) id = none := by simp [Swap.detach, hb, he]
    rw [hs]
    split
    · rw [hk]
      simp only [set_same]
      cases hp : (s.st.blocks id).int with
      | none => exact True.intro
      | some p =>
        have h1 : (s.st.blocks id).isAcquired = true := by simpa [SB.isEvictable, SB.isInternal, hp] using he
        have h2 : 0 < (s.st.blocks id).refs := by simpa [SB.isAcquired] using h1
        simp only [detach, set_same, SB.isEvictable, SB.isAcquired, h2]
        exact True.intro
    · simp only [detach, he]
      exact True.intro
  | true =>
    have h0 : (s.st.blocks id).refs = 0 := by
      simp [SB.isEvictable, SB.isAcquired] at he
      exact he.1
    obtain ⟨p, hp⟩ : ∃ p, (s.st.blocks id).int = some p := by
      cases hp : (s.st.blocks id).int with
      | some p => exact ⟨p, rfl⟩
      | none => simp [SB.isEvictable, SB.isInternal, hp] at he
    cases hd : (s.st.blocks id).dirty with
    | false =>
      simp only [Bool.false_eq_true, if_false, detach_clean E h0 hp hd]
      have hs : Swap.detach E.toEnv (onDisk s.st d) id = some (p, (onDisk s.st d).set id { s.st.blocks id with int := none }) := by
        simp [Swap.detach, Swap.clean, hb, he, hd, hp]
      rw [hs]
      exact ⟨h, rfl, rfl, [], by simp, rfl⟩
    | true =>
      simp only [if_true, hk, set_same, hp]
      rw [detach_clean E (s := { s with k := k, st := s.st.set id _ }) (id := id) (p := p) (by simp [h0]) (by simp) (by simp)]
      have hs : Swap.detach E.toEnv (onDisk s.st d) id = some (p, { ((onDisk s.st d).set id { s.st.blocks id with
          ext := some ((s.st.blocks id).ext.getD (E.pick s.st.live)), dirty := false, int := none }) with
          disk := fun j => if j = (s.st.blocks id).ext.getD (E.pick s.st.live) then s.st.mem p else d j }) := by
        simp [Swap.detach, Swap.clean, hb, he, hd, hp, hl, St.set]
        refine ⟨?_, ?_⟩
        · funext j; split <;> rfl
        · rfl
      rw [hs]
      refine ⟨h, rfl, rfl, [⟨id, p, (s.st.blocks id).ext.getD (E.pick s.st.live)⟩], rfl, ?_⟩
      simp [Swap.giveBack, giveBack, onDisk, St.set, put]
      funext j; split <;> rfl

/-- The first loop of `flush` against a scheduler that writes at once. -/
def LoopOk (o : Option (St D)) : R D (List Made) → Prop
  | .ok l1 s1 => s1.pend = [] ∧ o = some (onDisk s1.st (put s1.st.mem l1 s1.st.disk))
  | .ub => o = none
  | .throws _ _ => False

theorem flushLoop_agrees {E : Env D} (q : Calm E) (n : Nat) : ∀ {s : FSt D} (l : List Made), s.pend = [] →
    LoopOk (Swap.flushAux E.toEnv n (onDisk s.st (put s.st.mem l s.st.disk))) (flushLoop E n s l) := by
  induction n with
  | zero => intro s l h; exact ⟨h, rfl⟩
  | succ n ih =>
    intro s l h
    unfold flushLoop Swap.flushAux
    show LoopOk (match popEvict s.st.mode s.st.evict with | none => _ | some (x, rest) => _) _
    cases hp : popEvict s.st.mode s.st.evict with
    | none => exact ⟨h, rfl⟩
    | some xr =>
      obtain ⟨x, rest⟩ := xr
      simp only
      have h1 := flushOne_agrees q (s := { s with st := { s.st with evict := rest } }) h x.2 l (put s.st.mem l s.st.disk)
      have e1 : onDisk { s.st with evict := rest } (put s.st.mem l s.st.disk) =
        { onDisk s.st (put s.st.mem l s.st.disk) with evict := rest } := rfl
      rw [show ({ s with st := { s.st with evict := rest } } : FSt D).st = { s.st with evict := rest } from rfl, e1] at h1
      cases hf : flushOne E { s with st := { s.st with evict := rest } } x.2 l with
      | throws hit s1 =>
        rw [hf] at h1
        exact h1.elim
      | ub =>
        rw [hf] at h1
        cases hd : Swap.detach E.toEnv { onDisk s.st (put s.st.mem l s.st.disk) with evict := rest } x.2 with
        | none => rfl
        | some y => rw [hd] at h1; exact h1.elim
      | ok l1 s1 =>
        rw [hf] at h1
        cases hd : Swap.detach E.toEnv { onDisk s.st (put s.st.mem l s.st.disk) with evict := rest } x.2 with
        | none => rw [hd] at h1; exact h1.elim
        | some y =>
          rw [hd] at h1
          obtain ⟨g1, g2, g3, new, g4, g5⟩ := h1
          simp only [R.bind, Option.bind_some]
          rw [g5]
          have := ih l1 g1
          have e2 : put s1.st.mem l1 s1.st.disk = put s.st.mem new (put s.st.mem l s.st.disk) := by
            rw [g2, g3, g4, put_append]
          rw [e2] at this
          exact this

theorem flushWait_quiet {E : Env D} (q : Calm E) (l : List Made) : ∀ {s : FSt D}, s.pend = [] →
    ∃ k, flushWait E l s = .ok () { s with k := k, st := onDisk s.st (put s.st.mem l s.st.disk) } := by
  induction l with
  | nil => intro s _; exact ⟨s.k, rfl⟩
  | cons m l ih =>
    intro s h
    simp only [flushWait, writeSync_quiet q h]
    obtain ⟨k, hk⟩ := ih (s := { s with k := s.k + 1, st := setDisk s.st m.e (s.st.mem m.p) }) h
    exact ⟨k, hk⟩

theorem flush_agrees {E : Env D} (hE : ∀ l, E.pick l ∉ l) {dflt : D} (q : Calm E) {s : FSt D} {a : FAbs D} (hi : FInv dflt s a none) (h : s.pend = []) :
    Agrees (flush E s) ((Swap.flush E.toEnv s.st).map fun t => ((), t)) := by
  have h1 := flushLoop_agrees q s.st.evict.length (s := s) [] h
  have e1 : onDisk s.st (put s.st.mem [] s.st.disk) = s.st := rfl
  rw [e1] at h1
  unfold flush Swap.flush
  rcases flushLoop_spec E hE (a := a) (dflt := dflt) s.st.evict.length (s := s) (l := []) (by simpa using hi) ⟨by simp, by simp, by simp, by simp, by simp, by simp⟩ with
    ⟨hit, s1, g1, _⟩ | ⟨l, s1, g1, g2, g3, _⟩
  · rw [g1] at h1
    exact h1.elim
  · rw [g1] at h1
    obtain ⟨h2, h3⟩ := h1
    rw [g1, h3]
    obtain ⟨k, hk⟩ := flushWait_quiet q l.reverse h2
    simp only [R.bind, hk, Option.map_some]
    have hn : (l.map (·.e)).Nodup := by
      have := g3.nd
      have key : ∀ l' : List Made, (∀ m ∈ l', m ∈ l) → (l'.map (·.id)).Nodup → (l'.map (·.e)).Nodup := by
        intro l'
        induction l' with
        | nil => intro _ _; simp
        | cons m l' ih =>
          intro hm hn
          rw [List.map_cons, List.nodup_cons] at hn ⊢
          refine ⟨fun hc => hn.1 ?_, ih (fun x hx => hm x (List.mem_cons_of_mem _ hx)) hn.2⟩
          obtain ⟨x, hx, hxe⟩ := List.mem_map.1 hc
          have a1 := g3.ext x (hm x (List.mem_cons_of_mem _ hx))
          have a2 := g3.ext m (hm m List.mem_cons_self)
          rw [hxe] at a1
          have : x.id = m.id := g2.core.extOwn x.id m.id m.e a1 a2
          exact List.mem_map.2 ⟨x, hx, this⟩
      exact key l (fun _ hm => hm) this
    rw [put_reverse _ _ _ hn]
    exact ⟨rfl, rfl, h2⟩

theorem lift_agrees {s : FSt D} (h : s.pend = []) (o : Option (St D)) : Agrees (lift s o) (o.map fun t => ((), t)) := by
  cases o with
  | none => exact True.intro
  | some t => exact ⟨rfl, rfl, h⟩

/-- Every call. -/
theorem step_agrees {E : Env D} (hE : ∀ l, E.pick l ∉ l) {dflt : D} (q : Calm E) {s : FSt D} {a : FAbs D} (hi : FInv dflt s a none) (h : s.pend = []) (op : Op D) :
    Agrees (step E s op) (Swap.step E.toEnv s.st op) := by
  have unit : ∀ {x : R D Unit} {o : Option (St D)}, Agrees x (o.map fun t => ((), t)) → Agrees (x.map fun _ _ => (Res.unit : Res D)) (o.map fun t => ((Res.unit : Res D), t)) := by
    intro x o hx
    have := Agrees.map hx (f := fun _ _ => (Res.unit : Res D)) (g := fun y => (Res.unit, y.2)) (fun _ _ => rfl)
    rw [Option.map_map] at this
    exact this
  cases op with
  | acquire id u => exact (acquire_agrees q h id u).map (fun _ _ => rfl)
  | write id d => exact unit (lift_agrees h _)
  | release id d pr => exact unit (release_agrees q h id d pr)
  | deinit id => exact unit (lift_agrees h _)
  | init id e => exact unit (lift_agrees h _)
  | extract id => exact (extract_agrees q h id).map (fun _ _ => rfl)
  | flush => exact unit (flush_agrees hE q hi h)
  | alloc => exact ⟨rfl, rfl, h⟩
  | free id => exact unit (lift_agrees h _)
  | client d =>
    refine ⟨?_, ?_, ?_⟩ <;> simp only [clientBlock, settle_nil E h, Swap.clientBlock]
    · rfl
    · exact h
  | retag m l =>
    simp only [step, Swap.step]
    split
    · exact ⟨rfl, rfl, h⟩
    · exact True.intro

end Foxxll.SwapFail
