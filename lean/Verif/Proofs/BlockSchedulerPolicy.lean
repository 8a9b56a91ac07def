import Verif.Proofs.BlockSchedulerOffline
import Verif.Spec.BlockSchedulerPolicy

set_option linter.unusedSimpArgs false
set_option linter.unusedVariables false

namespace Foxxll.Swap

variable {D : Type}

/-! ### The queue of online_lru -/

/-- The queue only gets shorter, from `s` to `s'`. -/
def Shrinks (s s' : St D) : Prop := s'.mode = s.mode ∧ s'.evict.Sublist s.evict

theorem Shrinks.refl (s : St D) : Shrinks s s := ⟨rfl, List.Sublist.refl _⟩
theorem Shrinks.trans {s t u : St D} (h1 : Shrinks s t) (h2 : Shrinks t u) : Shrinks s u := ⟨h2.1.trans h1.1, h2.2.trans h1.2⟩

theorem detach_same {E : Env D} (hE : ∀ l, E.pick l ∉ l) {s s' : St D} {id p : Nat} (h : detach E s id = some (p, s')) : s'.mode = s.mode ∧ s'.evict = s.evict ∧
    s'.n = s.n ∧ s'.freeIds = s.freeIds ∧ ∀ j, j ≠ id → s'.blocks j = s.blocks j := by
  have hd := detach_inv hE h
  obtain ⟨r1, r2, r3, r4, r5, r6, r7, r8, r9, r10⟩ := hd.rest
  exact ⟨r9, r6, r5, r10, hd.other⟩

theorem erase_sublist (l : List (Nat × Nat)) (id : Nat) : (eraseEvict l id).Sublist l := List.filter_sublist

theorem pop_sublist {m : Mode} {l rest : List (Nat × Nat)} {x : Nat × Nat} (h : popEvict m l = some (x, rest)) : rest.Sublist l := by
  cases l with
  | nil => cases h
  | cons y l =>
    cases m with
    | lru => simp only [popEvict, Option.some.injEq, Prod.mk.injEq] at h; obtain ⟨rfl, rfl⟩ := h; exact List.sublist_cons_self _ _
    | lfd => simp only [popEvict, Option.some.injEq, Prod.mk.injEq] at h; obtain ⟨rfl, rfl⟩ := h; exact List.erase_sublist

theorem getFreeBs_same (s : St D) : (getFreeBs s).2.mode = s.mode ∧ (getFreeBs s).2.evict = s.evict ∧ (getFreeBs s).2.n = s.n ∧
    (getFreeBs s).2.freeIds = s.freeIds ∧ (getFreeBs s).2.blocks = s.blocks := by
  unfold getFreeBs
  split
  · exact ⟨rfl, rfl, rfl, rfl, rfl⟩
  · split <;> exact ⟨rfl, rfl, rfl, rfl, rfl⟩

/-- What `getFree` leaves alone. -/
theorem getFree_same {E : Env D} (hE : ∀ l, E.pick l ∉ l) {s s' : St D} {p : Nat} (h : getFree E s = some (p, s')) :
    Shrinks s s' ∧ s'.n = s.n ∧ s'.freeIds = s.freeIds ∧ ∀ j, s'.blocks j = s.blocks j ∨ j ∈ s.evict.map (·.2) := by
  obtain ⟨g1, g2, g3, g4, g5⟩ := getFreeBs_same s
  unfold getFree at h
  cases hg : getFreeBs s with
  | mk o s1 =>
    rw [hg] at h g1 g2 g3 g4 g5
    simp only at g1 g2 g3 g4 g5
    cases o with
    | some q =>
      simp only at h
      cases h
      exact ⟨⟨g1, by rw [g2]; exact List.Sublist.refl _⟩, g3, g4, fun j => .inl (by rw [g5])⟩
    | none =>
      simp only at h
      cases hp : popEvict s1.mode s1.evict with
      | none => rw [hp] at h; cases h
      | some xr =>
        obtain ⟨x, rest⟩ := xr
        rw [hp] at h
        simp only at h
        obtain ⟨d1, d2, d3, d4, d5⟩ := detach_same hE h
        refine ⟨⟨d1.trans g1, ?_⟩, d3.trans g3, d4.trans g4, fun j => ?_⟩
        · rw [d2, ← g2]; exact pop_sublist hp
        · by_cases hj : j = x.2
          · right
            rw [← g2, hj, ((pop_perm hp).map _).mem_iff]; simp
          · left; rw [d5 j hj]; exact congrFun g5 j

theorem flushAux_same {E : Env D} (hE : ∀ l, E.pick l ∉ l) (k : Nat) {s s' : St D} (h : flushAux E k s = some s') :
    Shrinks s s' ∧ s'.n = s.n ∧ s'.freeIds = s.freeIds ∧ ∀ j, s'.blocks j = s.blocks j ∨ j ∈ s.evict.map (·.2) := by
  induction k generalizing s with
  | zero => cases h; exact ⟨Shrinks.refl _, rfl, rfl, fun _ => .inl rfl⟩
  | succ k ih =>
    simp only [flushAux] at h
    cases hp : popEvict s.mode s.evict with
    | none => rw [hp] at h; cases h; exact ⟨Shrinks.refl _, rfl, rfl, fun _ => .inl rfl⟩
    | some xr =>
      obtain ⟨x, rest⟩ := xr
      rw [hp] at h
      simp only [Option.bind_eq_some_iff] at h
      obtain ⟨r, h1, h2⟩ := h
      obtain ⟨d1, d2, d3, d4, d5⟩ := detach_same hE h1
      obtain ⟨⟨i1, i2⟩, i3, i4, i5⟩ := ih h2
      have e2 : (giveBack r.2 r.1).evict = rest := d2
      have hsub := pop_sublist hp
      refine ⟨⟨i1.trans d1, ?_⟩, i3.trans d3, i4.trans d4, fun j => ?_⟩
      · rw [e2] at i2; exact i2.trans hsub
      · rcases i5 j with i | i
        · by_cases hj : j = x.2
          · right; rw [hj, ((pop_perm hp).map _).mem_iff]; simp
          · left; rw [i]; exact d5 j hj
        · right; rw [e2] at i; exact (hsub.map _).subset i

theorem deinit_same {s y : St D} {id : Nat} (h : deinit s id = some y) : y.mode = s.mode ∧ y.evict.Sublist s.evict ∧ y.n = s.n ∧ y.freeIds = s.freeIds ∧
    ∀ j, j ≠ id → y.blocks j = s.blocks j := by
  unfold deinit at h
  split at h
  · cases h
  · simp only at h
    split at h
    · cases h
    · have k1 : ∀ t : St D, t = (if (s.blocks id).isEvictable then ({ s with evict := eraseEvict s.evict id } : St D) else s) →
          t.mode = s.mode ∧ t.evict.Sublist s.evict ∧ t.n = s.n ∧ t.freeIds = s.freeIds ∧ t.blocks = s.blocks := by
        rintro t rfl
        split
        · exact ⟨rfl, erase_sublist _ _, rfl, rfl, rfl⟩
        · exact ⟨rfl, List.Sublist.refl _, rfl, rfl, rfl⟩
      obtain ⟨k2, k3, k4, k5, k6⟩ := k1 _ rfl
      split at h
      · cases h
        exact ⟨k2, k3, k4, k5, fun j hj => (set_other _ _ hj).trans (congrFun k6 j)⟩
      · cases h
        exact ⟨k2, k3, k4, k5, fun j hj => (set_other _ _ hj).trans (congrFun k6 j)⟩

theorem alloc_nil {s : St D} (h : s.freeIds = []) : alloc s = (s.n, { s with n := s.n + 1, blocks := fun j => if j = s.n then {} else s.blocks j }) := by
  unfold alloc; rw [h]

theorem alloc_cons {s : St D} {x : Nat} {rest : List Nat} (h : s.freeIds = x :: rest) : alloc s = (rest.foldl min x, { s with freeIds := s.freeIds.erase (rest.foldl min x) }) := by
  unfold alloc; rw [h]

/-- The free identifiers after a call other than `alloc`. -/
def freeAfter (s : St D) : Op D → List Nat
  | .free id => id :: s.freeIds
  | _ => s.freeIds

/-- What a call leaves alone: the queue gets shorter, except that a release puts its block at the end;
other blocks change only if they are evictable. -/
theorem step_same {E : Env D} (hE : ∀ l, E.pick l ∉ l) {s s' : St D} {op : Op D} {r} (h : step E s op = some (r, s')) (hr : ∀ m q, op ≠ .retag m q) :
    s'.mode = s.mode ∧ (s'.evict.Sublist s.evict ∨ ∃ id d pr q, op = .release id d pr ∧ s'.evict = eraseEvict s.evict id ++ [(q, id)]) ∧
    (∀ j, opId op ≠ some j → s'.blocks j = s.blocks j ∨ j ∈ s.evict.map (·.2) ∨ (op = .alloc ∧ s.freeIds = [] ∧ j = s.n)) ∧
    (op ≠ .alloc → s'.n = s.n ∧ s'.freeIds = freeAfter s op) := by
  cases op with
  | retag m q => exact absurd rfl (hr m q)
  | acquire id u =>
    simp only [step, Option.map_eq_some_iff] at h
    obtain ⟨x, h1, h2⟩ := h
    cases h2
    unfold acquire at h1
    split at h1
    · cases h1
    · simp only at h1
      split at h1
      · cases h1
        have hb : ∀ j, id ≠ j → ((if (s.blocks id).isAcquired then s else ({ s with evict := eraseEvict s.evict id } : St D)).set id { s.blocks id with refs := (s.blocks id).refs + 1 }).blocks j = s.blocks j := by
          intro j hj
          rw [set_other _ _ (Ne.symm hj)]; split <;> rfl
        refine ⟨?_, .inl ?_, fun j hj => .inl (hb j fun e => hj (by rw [e]; rfl)), fun _ => ?_⟩
        · simp only [set_mode]; split <;> rfl
        · simp only [set_evict]; split
          · exact List.Sublist.refl _
          · exact erase_sublist _ _
        · simp only [set_n, set_freeIds]; split <;> exact ⟨rfl, rfl⟩
      · simp only [Option.map_eq_some_iff] at h1
        obtain ⟨y, h3, h4⟩ := h1
        cases h4
        obtain ⟨⟨g1, g2⟩, g3, g4, g5⟩ := getFree_same hE h3
        refine ⟨g1, .inl g2, fun j hj => ?_, fun _ => ⟨g3, g4⟩⟩
        have hne : j ≠ id := fun e => hj (by rw [e]; rfl)
        rcases g5 j with i | i
        · left; rw [← i]; simp [bringIn, St.set, hne]
        · exact .inr (.inl i)
  | write id d =>
    simp only [step, Option.map_eq_some_iff] at h
    obtain ⟨x, h1, h2⟩ := h
    cases h2
    unfold write at h1
    split at h1
    · cases h1
    · split at h1
      · simp only [Option.map_eq_some_iff] at h1
        obtain ⟨p, _, h4⟩ := h1
        cases h4
        exact ⟨rfl, .inl (List.Sublist.refl _), fun j _ => .inl rfl, fun _ => ⟨rfl, rfl⟩⟩
      · cases h1
  | release id dirty pr =>
    simp only [step, Option.map_eq_some_iff] at h
    obtain ⟨x, h1, h2⟩ := h
    cases h2
    unfold releaseWith at h1
    split at h1
    · cases h1
    · simp only at h1
      split at h1
      · split at h1
        · cases h1
          exact ⟨rfl, .inl (List.Sublist.refl _), fun j hj => .inl (set_other _ _ fun e => hj (by rw [e]; rfl)), fun _ => ⟨rfl, rfl⟩⟩
        · split at h1
          · cases h1
            exact ⟨rfl, .inr ⟨id, dirty, pr, _, rfl, rfl⟩, fun j hj => .inl (set_other _ _ fun e => hj (by rw [e]; rfl)), fun _ => ⟨rfl, rfl⟩⟩
          · simp only [Option.map_eq_some_iff] at h1
            obtain ⟨y, h3, h4⟩ := h1
            cases h4
            obtain ⟨d1, d2, d3, d4, d5⟩ := detach_same hE h3
            refine ⟨d1, .inl ?_, fun j hj => .inl ?_, fun _ => ⟨d3, d4⟩⟩
            · show y.2.evict.Sublist s.evict; rw [d2]; exact List.Sublist.refl _
            · have hne : j ≠ id := fun e => hj (by rw [e]; rfl)
              exact (d5 j hne).trans (set_other _ _ hne)
      · cases h1
  | deinit id =>
    simp only [step, Option.map_eq_some_iff] at h
    obtain ⟨x, h1, h2⟩ := h
    cases h2
    have key := deinit_same h1
    exact ⟨key.1, .inl key.2.1, fun j hj => .inl (key.2.2.2.2 j fun e => hj (by rw [e]; rfl)), fun _ => ⟨key.2.2.1, key.2.2.2.1⟩⟩
  | init id e =>
    simp only [step, Option.map_eq_some_iff] at h
    obtain ⟨x, h1, h2⟩ := h
    cases h2
    unfold initialize_ at h1
    split at h1
    · cases h1
    · simp only at h1
      split at h1
      · cases h1
      · cases h1
        exact ⟨rfl, .inl (List.Sublist.refl _), fun j hj => .inl (set_other _ _ fun e => hj (by rw [e]; rfl)), fun _ => ⟨rfl, rfl⟩⟩
  | extract id =>
    simp only [step, Option.map_eq_some_iff] at h
    obtain ⟨x, h1, h2⟩ := h
    cases h2
    unfold extract at h1
    split at h1
    · cases h1
    · simp only [Option.map_eq_some_iff] at h1
      obtain ⟨y, h3, h4⟩ := h1
      cases h4
      have key : y.mode = s.mode ∧ y.evict.Sublist s.evict ∧ y.n = s.n ∧ y.freeIds = s.freeIds ∧ ∀ j, j ≠ id → y.blocks j = s.blocks j := by
        unfold putOut at h3
        simp only at h3
        have k1 : ∀ t : St D, t = (if (s.blocks id).isEvictable then ({ s with evict := eraseEvict s.evict id } : St D) else s) →
            t.mode = s.mode ∧ t.evict.Sublist s.evict ∧ t.n = s.n ∧ t.freeIds = s.freeIds ∧ t.blocks = s.blocks := by
          rintro t rfl
          split
          · exact ⟨rfl, erase_sublist _ _, rfl, rfl, rfl⟩
          · exact ⟨rfl, List.Sublist.refl _, rfl, rfl, rfl⟩
        obtain ⟨k2, k3, k4, k5, k6⟩ := k1 _ rfl
        split at h3
        · simp only [Option.map_eq_some_iff] at h3
          obtain ⟨z, h5, h6⟩ := h3
          cases h6
          obtain ⟨d1, d2, d3, d4, d5⟩ := detach_same hE h5
          refine ⟨d1.trans k2, ?_, d3.trans k4, d4.trans k5, fun j hj => (d5 j hj).trans (congrFun k6 j)⟩
          show z.2.evict.Sublist s.evict
          rw [d2]; exact k3
        · cases h3
          exact ⟨k2, k3, k4, k5, fun j _ => congrFun k6 j⟩
      obtain ⟨k1, k2, k3, k4, k5⟩ := key
      refine ⟨k1, .inl k2, fun j hj => .inl ?_, fun _ => ⟨k3, k4⟩⟩
      have hne : j ≠ id := fun e => hj (by rw [e]; rfl)
      exact (set_other _ _ hne).trans (k5 j hne)
  | flush =>
    simp only [step, Option.map_eq_some_iff] at h
    obtain ⟨x, h1, h2⟩ := h
    cases h2
    obtain ⟨⟨g1, g2⟩, g3, g4, g5⟩ := flushAux_same hE _ h1
    exact ⟨g1, .inl g2, fun j _ => (g5 j).imp id .inl, fun _ => ⟨g3, g4⟩⟩
  | alloc =>
    simp only [step, Option.some.injEq, Prod.mk.injEq] at h
    obtain ⟨-, rfl⟩ := h
    cases hf : s.freeIds with
    | nil =>
      rw [alloc_nil hf]
      refine ⟨rfl, .inl (List.Sublist.refl _), fun j _ => ?_, fun hc => absurd rfl hc⟩
      by_cases hj : j = s.n
      · exact .inr (.inr ⟨rfl, rfl, hj⟩)
      · exact .inl (by simp [hj])
    | cons x rest =>
      rw [alloc_cons hf]
      exact ⟨rfl, .inl (List.Sublist.refl _), fun j _ => .inl rfl, fun hc => absurd rfl hc⟩
  | free id =>
    simp only [step, Option.map_eq_some_iff] at h
    obtain ⟨x, h1, h2⟩ := h
    cases h2
    simp only [freeBlock, Option.map_eq_some_iff] at h1
    obtain ⟨y, h3, h4⟩ := h1
    cases h4
    have key := deinit_same h3
    refine ⟨key.1, .inl key.2.1, fun j hj => .inl (key.2.2.2.2 j fun e => hj (by rw [e]; rfl)), fun _ => ⟨key.2.2.1, ?_⟩⟩
    exact congrArg (id :: ·) key.2.2.2.1
  | client d =>
    simp only [step, Option.some.injEq, Prod.mk.injEq] at h
    obtain ⟨-, rfl⟩ := h
    exact ⟨rfl, .inl (List.Sublist.refl _), fun j _ => .inl rfl, fun _ => ⟨rfl, rfl⟩⟩

/-! ### Least recently used -/

structure LruInv (max : Nat) (s : St D) (l : List (Op D)) : Prop where
  core : Core s none
  ev : Ev s
  max : s.max = max
  mode : s.mode = .lru
  order : s.evict.Pairwise fun x y => age y.2 l < age x.2 l

theorem lru_inv {E : Env D} (hE : ∀ l, E.pick l ∉ l) {max : Nat} {s : St D} {l : List (Op D)} (h : LruHist E max s l) : LruInv max s l := by
  induction h with
  | start memory size mem disk hm =>
    have hi := init_inv (mem 0) memory size mem disk
    exact ⟨hi.core, hi.ev, hm.symm, rfl, List.Pairwise.nil⟩
  | @step s l s' r op h hr ha hs ih =>
    obtain ⟨c1, c2⟩ := step_core hE ih.core ih.ev ha hs
    obtain ⟨m1, m2, _, _⟩ := step_same hE hs hr
    refine ⟨c1, c2, (step_max hs).trans ih.max, m1.trans ih.mode, ?_⟩
    have aged : ∀ (q : List (Nat × Nat)), q.Sublist s.evict → (∀ x ∈ q, isRelease x.2 op = false) → q.Pairwise fun x y => age y.2 (op :: l) < age x.2 (op :: l) := by
      intro q hq hn
      have := ih.order.sublist hq
      refine this.imp_of_mem fun {x y} hx hy hxy => ?_
      simp only [age, hn x hx, hn y hy, Bool.false_eq_true, if_false]
      omega
    have notIn : ∀ id d pr, op = .release id d pr → id ∉ s.evict.map (·.2) := by
      intro id d pr ho hin
      have := ((ih.ev.mem id).1 hin).2
      rw [ho] at hs
      simp [step, releaseWith, SB.isAcquired, this] at hs
    rcases m2 with m2 | ⟨id, d, pr, q, ho, m2⟩
    · apply aged _ m2
      intro x hx
      cases op with
      | release i d pr =>
        simp only [isRelease, beq_eq_false_iff_ne, ne_eq]
        intro hc
        exact notIn i d pr rfl (hc ▸ List.mem_map.2 ⟨x, m2.subset hx, rfl⟩)
      | _ => rfl
    · rw [m2]
      have hn : ∀ x ∈ eraseEvict s.evict id, isRelease x.2 op = false := by
        intro x hx
        rw [ho]
        simp only [isRelease, beq_eq_false_iff_ne, ne_eq]
        intro hc
        exact notIn id d pr ho (hc ▸ List.mem_map.2 ⟨x, (erase_sublist _ _).subset hx, rfl⟩)
      refine List.pairwise_append.2 ⟨aged _ (erase_sublist _ _) hn, List.pairwise_singleton _ _, fun x hx y hy => ?_⟩
      simp only [List.mem_singleton] at hy
      subst hy
      have : isRelease id op = true := by rw [ho]; simp [isRelease]
      simp only [age, hn x hx, this, if_true, Bool.false_eq_true, if_false]
      omega

/-- The block that `acquire` evicts is the one the queue gives; there is no free internal block. -/
theorem acquire_victim {E : Env D} (hE : ∀ l, E.pick l ∉ l) {s s' : St D} {id p v : Nat} {u : Bool} (h : acquire E s id u = some (p, s'))
    (hv : (s.blocks v).isInternal = true) (hv' : (s'.blocks v).isInternal = false) :
    s.free = [] ∧ s.remaining = 0 ∧ ∃ x rest, popEvict s.mode s.evict = some (x, rest) ∧ v = x.2 := by
  have hvid : v ≠ id := by
    rintro rfl
    unfold acquire at h
    split at h
    · cases h
    · simp only at h
      split at h
      · rename_i q hq
        cases h
        rw [set_same] at hv'
        simp [SB.isInternal, hq] at hv'
      · rename_i hq
        simp [SB.isInternal, hq] at hv
  unfold acquire at h
  split at h
  · cases h
  · simp only at h
    split at h
    · cases h
      rw [set_other _ _ hvid] at hv'
      have : (if (s.blocks id).isAcquired then s else ({ s with evict := eraseEvict s.evict id } : St D)).blocks = s.blocks := by split <;> rfl
      rw [this, hv] at hv'; cases hv'
    · simp only [Option.map_eq_some_iff] at h
      obtain ⟨r, h1, h2⟩ := h
      cases h2
      have hbr : (bringIn E r.2 id u r.1).blocks v = r.2.blocks v := by simp [bringIn, St.set, hvid]
      rw [hbr] at hv'
      unfold getFree at h1
      cases hg : getFreeBs s with
      | mk o s1 =>
        have hb := getFreeBs_same s
        rw [hg] at h1 hb
        simp only at hb
        cases o with
        | some q =>
          simp only at h1
          cases h1
          simp only [hb.2.2.2.2] at hv'
          rw [hv] at hv'; cases hv'
        | none =>
          obtain ⟨e1, e2, e3⟩ := getFreeBs_none hg
          simp only at h1
          rw [e1] at h1
          cases hp : popEvict s.mode s.evict with
          | none => rw [hp] at h1; cases h1
          | some xr =>
            obtain ⟨x, rest⟩ := xr
            rw [hp] at h1
            simp only at h1
            refine ⟨e2, e3, x, rest, rfl, ?_⟩
            apply Classical.byContradiction
            intro hne
            have := (detach_inv hE h1).other v hne
            rw [this, hv] at hv'; cases hv'

/-! ### Identifiers -/

theorem foldl_min (x : Nat) (l : List Nat) : l.foldl min x ∈ x :: l ∧ ∀ y ∈ x :: l, l.foldl min x ≤ y := by
  induction l generalizing x with
  | nil => simp
  | cons z l ih =>
    simp only [List.foldl_cons]
    obtain ⟨h1, h2⟩ := ih (min x z)
    constructor
    · rcases List.mem_cons.1 h1 with h | h
      · rw [h]
        rcases Nat.le_total x z with hxz | hxz
        · rw [Nat.min_eq_left hxz]; simp
        · rw [Nat.min_eq_right hxz]; simp
      · simp [h]
    · have h3 := h2 (min x z) (by simp)
      intro y hy
      rcases List.mem_cons.1 hy with rfl | hy
      · have := Nat.min_le_left y z; omega
      · rcases List.mem_cons.1 hy with rfl | hy
        · have := Nat.min_le_right x y; omega
        · exact h2 y (by simp [hy])

structure IdInv (s : St D) (used : List Nat) : Prop where
  core : Core s none
  ev : Ev s
  nd : (used ++ s.freeIds).Nodup
  all : ∀ i, i < s.n ↔ i ∈ used ∨ i ∈ s.freeIds
  blank : ∀ i, i ∉ used → s.blocks i = {}

theorem deinit_blank {s s' : St D} {id : Nat} (h : deinit s id = some s') : s'.blocks id = {} := by
  unfold deinit at h
  split at h
  · cases h
  · simp only at h
    split at h
    · cases h
    · split at h <;> cases h
      · simp only [giveBack]; exact set_same _ _ _
      · exact set_same _ _ _

theorem id_step {E : Env D} (hE : ∀ l, E.pick l ∉ l) {s s' : St D} {used : List Nat} {r : Res D} (op : Op D) (ih : IdInv s used)
    (hu : ∀ id, opId op = some id → id ∈ used) (ha : ∀ id e, op = .init id (some e) → e ∈ s.held) (hs : step E s op = some (r, s')) : IdInv s' (Held used op r) := by
  obtain ⟨c1, c2⟩ := step_core hE ih.core ih.ev ha hs
  by_cases hret : ∃ m q, op = .retag m q
  · obtain ⟨m, q, rfl⟩ := hret
    simp only [step] at hs
    split at hs
    · cases hs
      exact ⟨c1, c2, ih.nd, ih.all, ih.blank⟩
    · cases hs
  have hr : ∀ m q, op ≠ .retag m q := fun m q hc => hret ⟨m, q, hc⟩
  obtain ⟨_, _, b1, b2⟩ := step_same hE hs hr
  have hidle : ∀ i, i ∉ used → i ∉ s.evict.map (·.2) := by
    intro i hi hc
    have := ((ih.ev.mem i).1 hc).1
    rw [ih.blank i hi] at this; exact this rfl
  have blank' : op ≠ .alloc → ∀ i, i ∉ used → s'.blocks i = {} := by
    intro hna i hi
    rcases b1 i (fun hc => hi (hu i hc)) with k | k | k
    · rw [k]; exact ih.blank i hi
    · exact absurd k (hidle i hi)
    · exact absurd k.1 hna
  cases op with
  | alloc =>
    simp only [step, Option.some.injEq, Prod.mk.injEq] at hs
    obtain ⟨rfl, rfl⟩ := hs
    simp only [Held]
    cases hf : s.freeIds with
    | nil =>
      rw [alloc_nil hf] at c1 c2 ⊢
      have hnu : s.n ∉ used := fun hc => absurd ((ih.all s.n).2 (.inl hc)) (Nat.lt_irrefl _)
      have hnd := ih.nd
      rw [hf, List.append_nil] at hnd
      refine ⟨c1, c2, ?_, fun i => ?_, fun i hi => ?_⟩
      · show (s.n :: used ++ s.freeIds).Nodup
        rw [hf, List.append_nil]; exact List.nodup_cons.2 ⟨hnu, hnd⟩
      · have := ih.all i
        rw [hf] at this
        show i < s.n + 1 ↔ i ∈ s.n :: used ∨ i ∈ s.freeIds
        rw [hf]
        simp only [List.mem_cons, List.not_mem_nil, or_false] at this ⊢
        rw [← this]; omega
      · simp only [List.mem_cons, not_or] at hi
        show (if i = s.n then ({} : SB) else s.blocks i) = {}
        rw [if_neg hi.1]; exact ih.blank i hi.2
    | cons x rest =>
      rw [alloc_cons hf] at c1 c2 ⊢
      have hm := (foldl_min x rest).1
      have hnd := ih.nd
      rw [hf] at hnd
      have hp := List.perm_cons_erase hm
      refine ⟨c1, c2, ?_, fun i => ?_, fun i hi => ?_⟩
      · show (rest.foldl min x :: used ++ s.freeIds.erase (rest.foldl min x)).Nodup
        rw [hf, List.cons_append]
        refine (List.Perm.nodup_iff ?_).1 hnd
        refine (List.Perm.append_left used hp).trans ?_
        exact List.perm_middle
      · have := ih.all i
        rw [hf] at this
        show i < s.n ↔ i ∈ rest.foldl min x :: used ∨ i ∈ s.freeIds.erase (rest.foldl min x)
        rw [hf, this, hp.mem_iff]
        simp only [List.mem_cons]
        constructor
        · rintro (k | k | k)
          · exact .inl (.inr k)
          · exact .inl (.inl k)
          · exact .inr k
        · rintro ((k | k) | k)
          · exact .inr (.inl k)
          · exact .inl k
          · exact .inr (.inr k)
      · simp only [List.mem_cons, not_or] at hi
        exact ih.blank i hi.2
  | free id =>
    obtain ⟨n1, n2⟩ := b2 (by simp)
    simp only [freeAfter] at n2
    have hid : id ∈ used := hu id rfl
    have hh : Held used (Op.free id : Op D) r = used.filter (fun x => x != id) := by cases r <;> rfl
    rw [hh]
    have hnd := List.nodup_append.1 ih.nd
    have hmem : ∀ i, i ∈ used.filter (fun x => x != id) ↔ i ∈ used ∧ i ≠ id := by intro i; simp [List.mem_filter]
    refine ⟨c1, c2, ?_, fun i => ?_, fun i hi => ?_⟩
    · rw [n2]
      refine List.nodup_append.2 ⟨hnd.1.sublist List.filter_sublist, List.nodup_cons.2 ⟨fun hc => hnd.2.2 id hid id hc rfl, hnd.2.1⟩, fun a ha b hb => ?_⟩
      have := (hmem a).1 ha
      rcases List.mem_cons.1 hb with rfl | hb
      · exact this.2
      · exact hnd.2.2 a this.1 b hb
    · rw [n1, n2, ih.all i, hmem, List.mem_cons]
      by_cases hi : i = id
      · subst hi; simp [hid]
      · simp [hi]
    · rw [hmem] at hi
      by_cases hi2 : i = id
      · subst hi2
        simp only [step, freeBlock, Option.map_eq_some_iff] at hs
        obtain ⟨x, ⟨y, h3, h4⟩, h2⟩ := hs
        cases h2; cases h4
        show y.blocks i = {}
        exact deinit_blank h3
      · exact blank' (by simp) i fun hc => hi ⟨hc, hi2⟩
  | retag m q => exact absurd rfl (hr m q)
  | acquire id u =>
    obtain ⟨n1, n2⟩ := b2 (by simp)
    have hh : Held used (Op.acquire id u : Op D) r = used := by cases r <;> rfl
    rw [hh]; simp only [freeAfter] at n2
    exact ⟨c1, c2, by rw [n2]; exact ih.nd, fun i => by rw [n1, n2]; exact ih.all i, blank' (by simp)⟩
  | write id d =>
    obtain ⟨n1, n2⟩ := b2 (by simp)
    have hh : Held used (Op.write id d : Op D) r = used := by cases r <;> rfl
    rw [hh]; simp only [freeAfter] at n2
    exact ⟨c1, c2, by rw [n2]; exact ih.nd, fun i => by rw [n1, n2]; exact ih.all i, blank' (by simp)⟩
  | release id d pr =>
    obtain ⟨n1, n2⟩ := b2 (by simp)
    have hh : Held used (Op.release id d pr : Op D) r = used := by cases r <;> rfl
    rw [hh]; simp only [freeAfter] at n2
    exact ⟨c1, c2, by rw [n2]; exact ih.nd, fun i => by rw [n1, n2]; exact ih.all i, blank' (by simp)⟩
  | deinit id =>
    obtain ⟨n1, n2⟩ := b2 (by simp)
    have hh : Held used (Op.deinit id : Op D) r = used := by cases r <;> rfl
    rw [hh]; simp only [freeAfter] at n2
    exact ⟨c1, c2, by rw [n2]; exact ih.nd, fun i => by rw [n1, n2]; exact ih.all i, blank' (by simp)⟩
  | init id e =>
    obtain ⟨n1, n2⟩ := b2 (by simp)
    have hh : Held used (Op.init id e : Op D) r = used := by cases r <;> rfl
    rw [hh]; simp only [freeAfter] at n2
    exact ⟨c1, c2, by rw [n2]; exact ih.nd, fun i => by rw [n1, n2]; exact ih.all i, blank' (by simp)⟩
  | extract id =>
    obtain ⟨n1, n2⟩ := b2 (by simp)
    have hh : Held used (Op.extract id : Op D) r = used := by cases r <;> rfl
    rw [hh]; simp only [freeAfter] at n2
    exact ⟨c1, c2, by rw [n2]; exact ih.nd, fun i => by rw [n1, n2]; exact ih.all i, blank' (by simp)⟩
  | flush =>
    obtain ⟨n1, n2⟩ := b2 (by simp)
    have hh : Held used (Op.flush : Op D) r = used := by cases r <;> rfl
    rw [hh]; simp only [freeAfter] at n2
    exact ⟨c1, c2, by rw [n2]; exact ih.nd, fun i => by rw [n1, n2]; exact ih.all i, blank' (by simp)⟩
  | client d =>
    obtain ⟨n1, n2⟩ := b2 (by simp)
    have hh : Held used (Op.client d : Op D) r = used := by cases r <;> rfl
    rw [hh]; simp only [freeAfter] at n2
    exact ⟨c1, c2, by rw [n2]; exact ih.nd, fun i => by rw [n1, n2]; exact ih.all i, blank' (by simp)⟩

theorem id_inv {E : Env D} (hE : ∀ l, E.pick l ∉ l) {s : St D} {used : List Nat} (h : IdHist E s used) : IdInv s used := by
  induction h with
  | start memory size mem disk =>
    have hi := init_inv (mem 0) memory size mem disk
    exact ⟨hi.core, hi.ev, List.nodup_nil, fun i => by simp [init], fun i _ => rfl⟩
  | @step s used s' r op h hu ha hs ih => exact id_step hE op ih hu ha hs

/-! ### Switching the algorithm -/

theorem drain_perm (m : Mode) (k : Nat) (l : List (Nat × Nat)) (h : l.length ≤ k) : (drain m k l).Perm l := by
  induction k generalizing l with
  | zero => rw [List.length_eq_zero_iff.1 (Nat.le_zero.1 h)]; exact List.Perm.refl _
  | succ k ih =>
    simp only [drain]
    cases hp : popEvict m l with
    | none => rw [pop_none hp]
    | some xr =>
      obtain ⟨x, rest⟩ := xr
      have hperm := pop_perm hp
      have hl : rest.length ≤ k := by have := hperm.length_eq; simp only [List.length_cons] at this; omega
      exact ((ih rest hl).cons x).trans hperm.symm

theorem drain_lru (k : Nat) (l : List (Nat × Nat)) (h : l.length ≤ k) : drain .lru k l = l := by
  induction k generalizing l with
  | zero => rw [List.length_eq_zero_iff.1 (Nat.le_zero.1 h)]; rfl
  | succ k ih =>
    cases l with
    | nil => rfl
    | cons x l => simp only [List.length_cons] at h; simp only [drain, popEvict]; rw [ih l (by omega)]

theorem drain_lfd (k : Nat) (l : List (Nat × Nat)) (h : l.length ≤ k) : (drain .lfd k l).Pairwise fun x y => better x y = true := by
  induction k generalizing l with
  | zero => exact List.Pairwise.nil
  | succ k ih =>
    cases l with
    | nil => exact List.Pairwise.nil
    | cons x l =>
      simp only [drain, popEvict]
      have hm := best_mem x l
      have hp := List.perm_cons_erase hm
      have hl : ((x :: l).erase (best x l)).length ≤ k := by have := hp.length_eq; simp only [List.length_cons] at this h; omega
      refine List.pairwise_cons.2 ⟨fun y hy => ?_, ih _ hl⟩
      have hy2 := ((drain_perm .lfd k _ hl).mem_iff).1 hy
      exact best_better x l y (List.mem_of_mem_erase hy2)

end Foxxll.Swap
