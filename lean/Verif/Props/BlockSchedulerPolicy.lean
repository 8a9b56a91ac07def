import Verif.Proofs.BlockSchedulerPolicy
import Verif.Props.BlockScheduler

/-
C71-C74: policies of the block scheduler (/repo/foxxll/mng/block_scheduler.hpp).
-/
namespace Foxxll.Swap

variable {D : Type}

/-! ### C71 -/

/-- C71: when `acquire` evicts a block, that block is idle, every other idle block in memory was released later, and all
the internal memory is in use. -/
theorem C71_lru (E : Env D) (hE : ∀ l, E.pick l ∉ l) {max : Nat} {s s' : St D} {l : List (Op D)} (h : LruHist E max s l) (id : Nat) (u : Bool) {r : Res D}
    (hs : step E s (.acquire id u) = some (r, s')) (v : Nat) (hv : (s.blocks v).isInternal = true) (hv' : (s'.blocks v).isInternal = false) :
    (s.blocks v).isAcquired = false ∧ attachedCount s = max ∧ ∀ i, i ≠ v → (s.blocks i).isEvictable = true → age i l < age v l := by
  have inv := lru_inv hE h
  simp only [step, Option.map_eq_some_iff] at hs
  obtain ⟨x, h1, h2⟩ := hs
  cases h2
  obtain ⟨f1, f2, y, rest, hp, rfl⟩ := acquire_victim hE h1 hv hv'
  rw [inv.mode] at hp
  have hacc := account inv.core
  rw [f1, f2, inv.max] at hacc
  cases he : s.evict with
  | nil => rw [he] at hp; cases hp
  | cons z q =>
    rw [he] at hp
    simp only [popEvict, Option.some.injEq, Prod.mk.injEq] at hp
    obtain ⟨rfl, rfl⟩ := hp
    have hy := ((inv.ev.mem z.2).1 (by rw [he]; simp)).2
    refine ⟨by simp [SB.isAcquired, hy], by simpa using hacc, fun i hi hev => ?_⟩
    simp only [SB.isEvictable, SB.isAcquired, SB.isInternal, Bool.and_eq_true, Bool.not_eq_true', decide_eq_false_iff_not] at hev
    have hm := (inv.ev.mem i).2 ⟨fun hc => by rw [hc] at hev; simp at hev, by omega⟩
    obtain ⟨w, w1, rfl⟩ := List.mem_map.1 hm
    have ho := inv.order
    rw [he] at ho w1
    rcases List.mem_cons.1 w1 with rfl | w1
    · exact absurd rfl hi
    · exact (List.pairwise_cons.1 ho).1 w w1

/-- C71: `acquire` evicts at most one block. -/
theorem C71_one (E : Env D) (hE : ∀ l, E.pick l ∉ l) {s s' : St D} (id : Nat) (u : Bool) {r : Res D}
    (hs : step E s (.acquire id u) = some (r, s')) (v w : Nat) (hv : (s.blocks v).isInternal = true) (hv' : (s'.blocks v).isInternal = false)
    (hw : (s.blocks w).isInternal = true) (hw' : (s'.blocks w).isInternal = false) : v = w := by
  simp only [step, Option.map_eq_some_iff] at hs
  obtain ⟨x, h1, h2⟩ := hs
  cases h2
  obtain ⟨_, _, y, rest, hp, rfl⟩ := acquire_victim hE h1 hv hv'
  obtain ⟨_, _, y', rest', hp', rfl⟩ := acquire_victim hE h1 hw hw'
  rw [hp] at hp'
  cases hp'; rfl

/-- Room for two blocks: block 0 is used again after block 1, so block 1 is evicted for block 2. -/
example : ∃ s s' l, LruHist exE 2 s l ∧ step exE s (.acquire 2 false) = some (.data 0, s') ∧ (s.blocks 1).isInternal = true ∧ (s'.blocks 1).isInternal = false ∧
    (s.blocks 0).isEvictable = true ∧ (s'.blocks 0).isInternal = true ∧ age 0 l = 0 ∧ age 1 l = 2 := by
  refine ⟨_, _, _, LruHist.step (.release 0 false (fun _ => 0)) (LruHist.step (.acquire 0 false) (LruHist.step (.release 1 true (fun _ => 0)) (LruHist.step (.acquire 1 false)
    (LruHist.step (.release 0 true (fun _ => 0)) (LruHist.step (.acquire 0 false) (LruHist.step .alloc (LruHist.step .alloc (LruHist.step .alloc (LruHist.start 2 1 (fun _ => 0) (fun _ => 0) rfl)
    ?_ ?_ rfl) ?_ ?_ rfl) ?_ ?_ rfl) ?_ ?_ rfl) ?_ ?_ rfl) ?_ ?_ rfl) ?_ ?_ rfl) ?_ ?_ rfl) ?_ ?_ rfl, rfl, rfl, rfl, rfl, rfl, rfl, rfl⟩ <;> intro _ _ hc <;> cases hc

/-! ### C72 -/

/-- C72: `allocate_swappable_block` gives the smallest identifier that is not in use, and the block is blank. -/
theorem C72_smallest (E : Env D) (hE : ∀ l, E.pick l ∉ l) {s s' : St D} {used : List Nat} (h : IdHist E s used) {n : Nat} (hs : step E s .alloc = some (.id n, s')) :
    n ∉ used ∧ (∀ j, j < n → j ∈ used) ∧ (s'.blocks n).isInitialized = false ∧ (s'.blocks n).isAcquired = false := by
  have inv := id_inv hE h
  simp only [step, Option.some.injEq, Prod.mk.injEq, Res.id.injEq] at hs
  obtain ⟨rfl, rfl⟩ := hs
  cases hf : s.freeIds with
  | nil =>
    rw [alloc_nil hf]
    refine ⟨fun hc => absurd ((inv.all s.n).2 (.inl hc)) (Nat.lt_irrefl _), fun j hj => ?_, by simp [SB.isInitialized, SB.isInternal, SB.isExternal], by simp [SB.isAcquired]⟩
    rcases (inv.all j).1 hj with k | k
    · exact k
    · rw [hf] at k; cases k
  | cons x rest =>
    rw [alloc_cons hf]
    obtain ⟨m1, m2⟩ := foldl_min x rest
    have hnu : rest.foldl min x ∉ used := fun hc => (List.nodup_append.1 inv.nd).2.2 _ hc _ (by rw [hf]; exact m1) rfl
    refine ⟨hnu, fun j hj => ?_, ?_, ?_⟩
    · have hlt : rest.foldl min x < s.n := (inv.all _).2 (.inr (by rw [hf]; exact m1))
      rcases (inv.all j).1 (by simp only at hj; omega) with k | k
      · exact k
      · rw [hf] at k
        have := m2 j k
        simp only at hj
        omega
    · show (s.blocks _).isInitialized = false
      rw [inv.blank _ hnu]; rfl
    · show (s.blocks _).isAcquired = false
      rw [inv.blank _ hnu]; rfl

/-- C72: identifiers in use are valid and given out once; every other identifier below the number of blocks will be
given out again. -/
theorem C72_valid (E : Env D) (hE : ∀ l, E.pick l ∉ l) {s : St D} {used : List Nat} (h : IdHist E s used) :
    used.Nodup ∧ (∀ id ∈ used, id < s.n) ∧ s.n = used.length + s.freeIds.length := by
  have inv := id_inv hE h
  refine ⟨(List.nodup_append.1 inv.nd).1, fun id hi => (inv.all id).2 (.inl hi), ?_⟩
  have hp : (used ++ s.freeIds).Perm (List.range s.n) := by
    refine (List.perm_ext_iff_of_nodup inv.nd List.nodup_range).2 fun i => ?_
    rw [List.mem_append, List.mem_range, inv.all]
  have := hp.length_eq
  rw [List.length_append, List.length_range] at this
  exact this.symm

/-- Of the blocks 0, 1, 2 the last two are freed: the next identifier is 1. -/
example : ∃ s s', IdHist exE s [0] ∧ s.n = 3 ∧ step exE s .alloc = some (.id 1, s') := by
  refine ⟨_, _, IdHist.step (.free 1) (IdHist.step (.free 2) (IdHist.step .alloc (IdHist.step .alloc (IdHist.step .alloc (IdHist.start 1 1 (fun _ => 0) (fun _ => 0))
    ?_ ?_ rfl) ?_ ?_ rfl) ?_ ?_ rfl) ?_ ?_ rfl) ?_ ?_ rfl, rfl, rfl⟩ <;> first
    | (intro id e hc; cases hc; done)
    | (intro id hc; cases hc; decide)
    | (intro id hc; cases hc)

/-! ### C73 -/

/-- C73: `flush` puts everything that is not acquired on disk and out of memory; nothing of what the client can
see changes. -/
theorem C73_flush (E : Env D) (hE : ∀ l, E.pick l ∉ l) (dflt : D) (hf : ∀ d, E.fill d = dflt) {s : St D} {a : Abs D} (h : Run E s a) :
    ∃ s', step E s .flush = some (.unit, s') ∧ Run E s' a ∧ (∀ id, (s'.blocks id).isEvictable = false) ∧ attachedCount s' = acquiredCount s' ∧
    (∀ id, 0 < a.refs id → s'.blocks id = s.blocks id) ∧
    ∀ id d, a.refs id = 0 → a.data id = some d → ∃ e, (s'.blocks id).ext = some e ∧ (s'.blocks id).dirty = false ∧ s'.disk e = d := by
  have inv := run_inv E hE hf h
  obtain ⟨s', g1, g2, g3, g4, g5⟩ := flushAux_spec E hE s.evict.length inv.core inv.ev
  have hs : step E s .flush = some (.unit, s') := by simp [step, flush, g1]
  have hrun : Run E s' a := Run.step .flush h trivial hs
  have inv' := run_inv E hE hf hrun
  have hempty : s'.evict = [] := List.length_eq_zero_iff.1 (by omega)
  have hout : ∀ id, (s'.blocks id).refs = 0 → (s'.blocks id).int = none := by
    intro id hr
    cases hi : (s'.blocks id).int with
    | none => rfl
    | some p =>
      have := (inv'.ev.mem id).2 ⟨by rw [hi]; simp, hr⟩
      rw [hempty] at this; cases this
  refine ⟨s', hs, hrun, fun id => ?_, ?_, fun id hr => ?_, fun id d hr hd => ?_⟩
  · simp only [SB.isEvictable, SB.isAcquired, SB.isInternal, Bool.and_eq_false_iff, Bool.not_eq_false', decide_eq_true_eq]
    by_cases hr : (s'.blocks id).refs = 0
    · right; rw [hout id hr]; rfl
    · left; omega
  · unfold attachedCount acquiredCount
    congr 1
    apply List.filter_congr
    intro id _
    rw [Bool.eq_iff_iff]
    simp only [SB.isInternal, SB.isAcquired, decide_eq_true_eq]
    constructor
    · intro hi
      apply Nat.pos_of_ne_zero
      intro hr; rw [hout id hr] at hi; cases hi
    · intro hr; exact Option.isSome_iff_ne_none.2 (inv'.core.refsInt id hr)
  · rcases g4.same id with ⟨e1, _⟩ | ⟨p, _, e2, _⟩
    · exact e1
    · have := (inv.ok id).refs; omega
  · have hr' : (s'.blocks id).refs = 0 := by have := (inv'.ok id).refs; omega
    have hdirty : (s'.blocks id).dirty = false := by
      cases hc : (s'.blocks id).dirty with
      | false => rfl
      | true => exact absurd (hout id hr') (inv'.core.dirtyInt id hc)
    have := (inv'.ok id).idleOut hr' hdirty
    rw [hd] at this
    cases he : (s'.blocks id).ext with
    | none => rw [he] at this; cases this
    | some e =>
      rw [he] at this
      simp only [Option.map_some, Option.some.injEq] at this
      exact ⟨e, rfl, hdirty, this.symm⟩

/-- Block 0 holds 5 in memory only, block 1 is acquired. -/
example : ∃ s a, Run exE s a ∧ a.refs 0 = 0 ∧ a.data 0 = some 5 ∧ (s.blocks 0).ext = none ∧ a.refs 1 = 1 :=
  ⟨_, _, play_run (l := exOps.take 5 ++ [.acquire 1 false]) (Run.start 2 1 (fun _ => 0) (fun _ => 0)) rfl, rfl, rfl, rfl, rfl⟩

/-! ### C74 -/

/-- C74: switching to offline_lfd or to online_lru takes over exactly the evictable blocks: it is a call that the client
does not notice (`Expected`, `Abs.next` in C51). -/
theorem C74_switch (E : Env D) (s : St D) (seq : List Elem) : step E s (.retag .lru (toLru s).evict) = some (.unit, toLru s) ∧
    step E s (.retag .lfd (Lfd.start s seq).st.evict) = some (.unit, (Lfd.start s seq).st) := by
  have h1 : ((toLru s).evict.map (·.2)).isPerm (s.evict.map (·.2)) = true := by
    rw [List.isPerm_iff]
    show (((drain s.mode s.evict.length s.evict).map fun x => ((0 : Nat), x.2)).map (·.2)).Perm _
    rw [List.map_map]
    exact (drain_perm s.mode _ s.evict (Nat.le_refl _)).map _
  have h2 : ((Lfd.start s seq).st.evict.map (·.2)).isPerm (s.evict.map (·.2)) = true := by
    rw [List.isPerm_iff]
    show ((s.evict.map fun x => (prio ((uses seq).1 x.2) (s.blocks x.2), x.2)).map (·.2)).Perm _
    rw [List.map_map]
    exact List.Perm.refl _
  constructor
  · simp only [step, h1, if_true]; rfl
  · simp only [step, h2, if_true]; rfl

/-- C74: online_lru evicts the blocks it takes over in the order in which the algorithm before would have: by falling
priority, blocks of the same priority by identifier. -/
theorem C74_order (s : St D) : ∃ l : List (Nat × Nat), l.Perm s.evict ∧ (toLru s).evict.map (·.2) = l.map (·.2) ∧ (s.mode = .lru → l = s.evict) ∧
    (s.mode = .lfd → l.Pairwise fun x y => y.1 < x.1 ∨ (x.1 = y.1 ∧ x.2 ≤ y.2)) := by
  refine ⟨drain s.mode s.evict.length s.evict, drain_perm _ _ _ (Nat.le_refl _), ?_, fun h => ?_, fun h => ?_⟩
  · show ((drain s.mode s.evict.length s.evict).map fun x => ((0 : Nat), x.2)).map (·.2) = _
    rw [List.map_map]; rfl
  · rw [h]; exact drain_lru _ _ (Nat.le_refl _)
  · rw [h]
    refine (drain_lfd _ s.evict (Nat.le_refl _)).imp fun {x y} hxy => ?_
    simpa [better] using hxy

/-- C74: offline_lfd executes every operation as online_lru would, up to the choice of the evicted blocks; the first
release behind the end of the prediction switches to online_lru. -/
theorem C74_data (E : Env D) (hE : ∀ l, E.pick l ∉ l) (dflt : D) (hf : ∀ d, E.fill d = dflt) {f f' : Lfd D} {a : Abs D} (h : Run E f.st a) (e : Option Nat) (op : POp) (id : Nat)
    (ha : Allowed a (op.call e (fun _ => 0) id : Op D)) (hx : f.exec E e op id = some f') :
    ∃ pr r, Expected dflt a (op.call e pr id) r ∧ Run E f'.st (a.next (op.call e pr id) r) ∧
      ((op = .acquire ∨ op = .acquireUninit) → ∃ p, (f'.st.blocks id).int = some p ∧ r = .data (f'.st.mem p)) ∧
      ((op = .release ∨ op = .releaseDirty) → f.nextUse = [] → f'.st.mode = .lru ∧ f'.nextUse = []) ∧
      (f.nextUse ≠ [] → f'.st.mode = f.st.mode) := by
  have acq : ∀ u, (Swap.acquire E f.st id u).map (fun r => ({ f with st := r.2 } : Lfd D)) = some f' →
      ∃ p, step E f.st (.acquire id u) = some (.data (f'.st.mem p), f'.st) ∧ (f'.st.blocks id).int = some p ∧ f'.st.mode = f.st.mode := by
    intro u hx
    simp only [Option.map_eq_some_iff] at hx
    obtain ⟨x, h1, h2⟩ := hx
    cases h2
    refine ⟨x.1, by simp [step, h1], ?_, ?_⟩
    · unfold Swap.acquire at h1
      split at h1
      · cases h1
      · simp only at h1
        split at h1
        · rename_i q hq; cases h1; simp [hq]
        · simp only [Option.map_eq_some_iff] at h1
          obtain ⟨y, _, h4⟩ := h1
          cases h4
          simp [bringIn, St.set]
    · have hs : step E f.st (.acquire id u) = some (.data (x.2.mem x.1), x.2) := by simp [step, h1]
      exact (step_same hE hs (by simp)).1
  have rel : ∀ d, f.release E id d = some f' → Allowed a (.release id d (fun _ => 0) : Op D) →
      ∃ pr, Run E f'.st (a.next (.release id d pr) .unit) ∧ (f.nextUse = [] → f'.st.mode = .lru ∧ f'.nextUse = []) ∧ (f.nextUse ≠ [] → f'.st.mode = f.st.mode) := by
    intro d hx ha
    unfold Lfd.release at hx
    cases hn : f.nextUse with
    | nil =>
      rw [hn] at hx
      simp only [Option.map_eq_some_iff] at hx
      obtain ⟨x, h1, h2⟩ := hx
      cases h2
      have hrun : Run E (toLru f.st) a := Run.step (.retag .lru (toLru f.st).evict) h trivial (C74_switch E f.st []).1
      have hs : step E (toLru f.st) (.release id d (fun _ => 0)) = some (.unit, x) := by
        simp only [step, show releaseWith E (toLru f.st) id d (fun _ => 0) = some x from h1, Option.map_some]
      have hm := (step_same hE hs (by simp)).1
      exact ⟨fun _ => 0, Run.step _ hrun ha hs, fun _ => ⟨hm, rfl⟩, fun hc => absurd rfl hc⟩
    | cons u rest =>
      rw [hn] at hx
      simp only [Option.map_eq_some_iff] at hx
      obtain ⟨x, h1, h2⟩ := hx
      cases h2
      have hs : step E f.st (.release id d (prio u)) = some (.unit, x) := by simp only [step, h1, Option.map_some]
      exact ⟨prio u, Run.step _ h ha hs, (by simp), fun _ => (step_same hE hs (by simp)).1⟩
  have exp : ∀ (o : Op D) r s', Allowed a o → step E f.st o = some (r, s') → Expected dflt a o r := fun o r s' hal hs => C51_partial E hE dflt hf h o hal hs
  cases op with
  | acquire =>
    obtain ⟨p, p1, p2, p3⟩ := acq false hx
    exact ⟨fun _ => 0, _, exp _ _ _ ha p1, Run.step _ h ha p1, fun _ => ⟨p, p2, rfl⟩, by simp, fun _ => p3⟩
  | acquireUninit =>
    obtain ⟨p, p1, p2, p3⟩ := acq true hx
    exact ⟨fun _ => 0, _, exp _ _ _ ha p1, Run.step _ h ha p1, fun _ => ⟨p, p2, rfl⟩, by simp, fun _ => p3⟩
  | release =>
    obtain ⟨pr, p1, p2, p3⟩ := rel false hx ha
    exact ⟨pr, .unit, rfl, p1, by simp, fun _ => p2, p3⟩
  | releaseDirty =>
    obtain ⟨pr, p1, p2, p3⟩ := rel true hx ha
    exact ⟨pr, .unit, rfl, p1, by simp, fun _ => p2, p3⟩
  | deinit =>
    simp only [Lfd.exec, Option.map_eq_some_iff] at hx
    obtain ⟨x, h1, h2⟩ := hx
    cases h2
    have hs : step E f.st (.deinit id) = some (.unit, x) := by simp only [step, h1, Option.map_some]
    exact ⟨fun _ => 0, _, exp _ _ _ ha hs, Run.step _ h ha hs, by simp, by simp, fun _ => (step_same hE hs (by simp)).1⟩
  | init =>
    simp only [Lfd.exec, Option.map_eq_some_iff] at hx
    obtain ⟨x, h1, h2⟩ := hx
    cases h2
    have hs : step E f.st (.init id e) = some (.unit, x) := by simp only [step, h1, Option.map_some]
    exact ⟨fun _ => 0, _, exp _ _ _ ha hs, Run.step _ h ha hs, by simp, by simp, fun _ => (step_same hE hs (by simp)).1⟩
  | extract =>
    simp only [Lfd.exec, Option.map_eq_some_iff] at hx
    obtain ⟨x, h1, h2⟩ := hx
    cases h2
    have hs : step E f.st (.extract id) = some (.ext x.1, x.2) := by simp only [step, h1, Option.map_some]
    exact ⟨fun _ => 0, _, exp _ _ _ ha hs, Run.step _ h ha hs, by simp, by simp, fun _ => (step_same hE hs (by simp)).1⟩

/-- C74: of the evictable blocks with the largest priority offline_lfd evicts the one with the smallest identifier. -/
theorem C74_ties (E : Env D) (hE : ∀ l, E.pick l ∉ l) {f : Lfd D} (hl : f.st.mode = .lfd) (id : Nat) (u : Bool) {r : Res D} {s' : St D}
    (hs : step E f.st (.acquire id u) = some (r, s')) (v : Nat) (hv : (f.st.blocks v).isInternal = true) (hv' : (s'.blocks v).isInternal = false) :
    ∃ q, (q, v) ∈ f.st.evict ∧ ∀ y ∈ f.st.evict, y.1 < q ∨ (y.1 = q ∧ v ≤ y.2) := by
  simp only [step, Option.map_eq_some_iff] at hs
  obtain ⟨x, h1, h2⟩ := hs
  cases h2
  obtain ⟨_, _, y, rest, hp, rfl⟩ := acquire_victim hE h1 hv hv'
  rw [hl] at hp
  cases he : f.st.evict with
  | nil => rw [he] at hp; cases hp
  | cons z q =>
    rw [he] at hp
    simp only [popEvict, Option.some.injEq, Prod.mk.injEq] at hp
    obtain ⟨rfl, _⟩ := hp
    refine ⟨(best z q).1, best_mem z q, fun y hy => ?_⟩
    have := best_better z q y hy
    simp only [better, Bool.or_eq_true, Bool.and_eq_true, decide_eq_true_eq] at this
    omega

/-- Neither block 0 nor block 1 is used again: block 0 is evicted. -/
example : ∃ s', Exec exE 2 (Lfd.start exSt [⟨.acquire, 2, 0⟩]) [⟨.acquire, 2, 0⟩] ∧ (Lfd.start exSt [⟨.acquire, 2, 0⟩]).st.evict = [(2 ^ 64 - 3, 0), (2 ^ 64 - 3, 1)] ∧
    step exE (Lfd.start exSt [⟨.acquire, 2, 0⟩]).st (.acquire 2 false) = some (.data 0, s') ∧ (s'.blocks 0).isInternal = false ∧ (s'.blocks 1).isInternal = true :=
  ⟨_, Exec.start _ exSt_hist, rfl, rfl, rfl, rfl⟩

/-- Blocks 0 and 1 are idle; block 0 is used next, then the prediction ends: block 1 comes first in the queue of online_lru. -/
example : (toLru (Lfd.start exSt [⟨.acquire, 0, 0⟩, ⟨.release, 0, 1⟩]).st).evict = [(0, 1), (0, 0)] := by decide

/-- Block 0 is acquired and has new contents. -/
def exAcq : St Nat × Abs Nat :=
  ((play exE (init 1 1 (fun _ => 0) (fun _ => 0)) {} (exOps.take 4)).map (fun x => (x.1, x.2.1))).getD (init 1 1 (fun _ => 0) (fun _ => 0), {})

/-- An empty prediction; the release of block 0 switches to online_lru. -/
example : ∃ f' : Lfd Nat, Run exE (Lfd.start exAcq.1 []).st exAcq.2 ∧ (Lfd.start exAcq.1 []).nextUse = [] ∧ (Lfd.start exAcq.1 []).st.mode = .lfd ∧
    Allowed exAcq.2 (POp.call none (fun _ => 0) 0 .releaseDirty) ∧ (Lfd.start exAcq.1 []).exec exE none .releaseDirty 0 = some f' ∧ f'.st.mode = .lru :=
  ⟨_, Run.step (.retag .lfd []) (play_run (l := exOps.take 4) (Run.start 1 1 (fun _ => 0) (fun _ => 0)) rfl) trivial rfl, rfl, rfl, by decide, rfl, rfl⟩

end Foxxll.Swap
