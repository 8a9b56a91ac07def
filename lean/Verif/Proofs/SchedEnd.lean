import Verif.Proofs.BlockSchedulerPolicy
import Verif.Proofs.BlockSchedulerAux
import Verif.Spec.SchedEnd
import Verif.Proofs.AheadKnown

/-
Lemmas on simulation runs with the real scheduler behind them, and on the destructors.
-/
namespace Foxxll.Swap

variable {D : Type}

/-! ### Identifiers -/

/-- Identifiers are either the client's or free. -/
structure Ids (n : Nat) (f used : List Nat) : Prop where
  nd : (used ++ f).Nodup
  all : ∀ i, i < n ↔ i ∈ used ∨ i ∈ f

theorem IdInv.ids {s : St D} {used : List Nat} (h : IdInv s used) : Ids s.n s.freeIds used := ⟨h.nd, h.all⟩

/-- `s` is the smallest number that is not in `used`. -/
def Least (used : List Nat) (n : Nat) : Prop := n ∉ used ∧ ∀ j, j < n → j ∈ used

theorem ids_alloc {s : St D} {used : List Nat} (h : Ids s.n s.freeIds used) :
    Ids (alloc s).2.n (alloc s).2.freeIds ((alloc s).1 :: used) ∧ Least used (alloc s).1 := by
  cases hf : s.freeIds with
  | nil =>
    rw [alloc_nil hf]
    have hnu : s.n ∉ used := fun hc => absurd ((h.all s.n).2 (.inl hc)) (Nat.lt_irrefl _)
    have hnd := h.nd
    rw [hf, List.append_nil] at hnd
    refine ⟨⟨?_, fun i => ?_⟩, hnu, fun j hj => ?_⟩
    · show (s.n :: used ++ s.freeIds).Nodup
      rw [hf, List.append_nil]; exact List.nodup_cons.2 ⟨hnu, hnd⟩
    · have := h.all i
      rw [hf] at this
      show i < s.n + 1 ↔ i ∈ s.n :: used ∨ i ∈ s.freeIds
      rw [hf]
      simp only [List.mem_cons, List.not_mem_nil, or_false] at this ⊢
      rw [← this]; omega
    · rcases (h.all j).1 hj with k | k
      · exact k
      · rw [hf] at k; cases k
  | cons x rest =>
    rw [alloc_cons hf]
    obtain ⟨m1, m2⟩ := foldl_min x rest
    have hnd := h.nd
    rw [hf] at hnd
    have hp := List.perm_cons_erase m1
    have hnu : rest.foldl min x ∉ used := fun hc => (List.nodup_append.1 hnd).2.2 _ hc _ m1 rfl
    refine ⟨⟨?_, fun i => ?_⟩, hnu, fun j hj => ?_⟩
    · show (rest.foldl min x :: used ++ s.freeIds.erase (rest.foldl min x)).Nodup
      rw [hf, List.cons_append]
      exact (List.Perm.nodup_iff ((List.Perm.append_left used hp).trans List.perm_middle)).1 hnd
    · have := h.all i
      rw [hf] at this
      show i < s.n ↔ i ∈ rest.foldl min x :: used ∨ i ∈ s.freeIds.erase (rest.foldl min x)
      rw [hf, this, hp.mem_iff]
      simp only [List.mem_cons]
      constructor
      · rintro (k | k | k)
        · exact .inl (.inr k)
        · exact .inl (.inl k)
        · exact .inr k
      · rintro ((k | k) | k)
        · exact .inr (.inl k)
        · exact .inl k
        · exact .inr (.inr k)
    · simp only at hj
      have hlt : rest.foldl min x < s.n := (h.all _).2 (.inr (by rw [hf]; exact m1))
      rcases (h.all j).1 (by omega) with k | k
      · exact k
      · rw [hf] at k
        have := m2 j k
        omega

theorem ids_free {n : Nat} {f used : List Nat} (h : Ids n f used) {id : Nat} (hi : id ∈ used) : Ids n (id :: f) (used.filter fun x => x != id) := by
  obtain ⟨d1, d2, d3⟩ := List.nodup_append.1 h.nd
  refine ⟨List.nodup_append.2 ⟨d1.sublist List.filter_sublist, List.nodup_cons.2 ⟨fun hc => d3 id hi id hc rfl, d2⟩, fun a ha b hb => ?_⟩, fun i => ?_⟩
  · simp only [List.mem_filter, bne_iff_ne, ne_eq] at ha
    rcases List.mem_cons.1 hb with rfl | hb
    · exact ha.2
    · exact d3 a ha.1 b hb
  · rw [h.all i]
    simp only [List.mem_filter, bne_iff_ne, ne_eq, List.mem_cons]
    constructor
    · rintro (k | k)
      · by_cases e : i = id
        · exact .inr (.inl e)
        · exact .inl ⟨k, e⟩
      · exact .inr (.inr k)
    · rintro (k | k | k)
      · exact .inl k.1
      · subst k; exact .inl hi
      · exact .inr k

theorem ids_length {n : Nat} {f used : List Nat} (h : Ids n f used) : n = used.length + f.length := by
  have hp : (used ++ f).Perm (List.range n) := by
    refine (List.perm_ext_iff_of_nodup h.nd List.nodup_range).2 fun i => ?_
    rw [List.mem_append, List.mem_range, h.all]
  have := hp.length_eq
  rw [List.length_append, List.length_range] at this
  omega

/-! ### Simulation -/

/-- Invariant of a simulation run. -/
structure SimOk (used0 : List Nat) (s : St D) (used : List Nat) : Prop where
  core : Core s none
  ev : Ev s
  ids : Ids s.n s.freeIds used
  blank : ∀ i, i ∉ used0 → s.blocks i = {}
  old : ∀ i ∈ used0, i < s.n

theorem Ev.of_ids {s t : St D} (h : Ev s) (hb : t.blocks = s.blocks) (he : (t.evict.map (·.2)).Perm (s.evict.map (·.2))) : Ev t :=
  ⟨he.nodup_iff.2 h.nd, fun i => by rw [he.mem_iff, hb]; exact h.mem i, by rw [hb]; exact h.valid⟩

theorem toSim_ids (s : St D) : ((toSim s).evict.map (·.2)).Perm (s.evict.map (·.2)) := by
  show (((drain s.mode s.evict.length s.evict).reverse.map fun x => ((0 : Nat), x.2)).map (·.2)).Perm _
  rw [List.map_map]
  exact (((List.reverse_perm _).trans (drain_perm s.mode _ s.evict (Nat.le_refl _))).map _)

theorem toLru_ids (s : St D) : ((toLru s).evict.map (·.2)).Perm (s.evict.map (·.2)) := by
  show (((drain s.mode s.evict.length s.evict).map fun x => ((0 : Nat), x.2)).map (·.2)).Perm _
  rw [List.map_map]
  exact ((drain_perm s.mode _ s.evict (Nat.le_refl _)).map _)

theorem lfd_ids (s : St D) (seq : List Elem) : ((Lfd.start s seq).st.evict.map (·.2)).Perm (s.evict.map (·.2)) := by
  have : (Lfd.start s seq).st.evict.map (·.2) = s.evict.map (·.2) := by
    show (s.evict.map fun x => (prio ((uses seq).1 x.2) (s.blocks x.2), x.2)).map (·.2) = _
    rw [List.map_map]; rfl
  rw [this]

theorem simOk_start {s : St D} {used : List Nat} (h : IdInv s used) : SimOk used (toSim s) used :=
  ⟨h.core.congr rfl rfl rfl rfl rfl rfl rfl, h.ev.of_ids rfl (toSim_ids s), h.ids, h.blank, fun i hi => (h.all i).2 (.inl hi)⟩

/-- Calls that leave the blocks without data alone. -/
theorem simOk_real {E : Env D} (hE : ∀ l, E.pick l ∉ l) {used0 used : List Nat} {s s' : St D} {op : Op D} {r} (h : SimOk used0 s used) (hs : step E s op = some (r, s'))
    (h1 : opId op = none) (h2 : op ≠ .alloc) (h3 : ∀ m q, op ≠ .retag m q) (h4 : ∀ id e, op ≠ .init id e) (h5 : ∀ id, op ≠ .free id) : SimOk used0 s' used := by
  obtain ⟨c1, c2⟩ := step_core hE h.core h.ev (fun id e hc => absurd hc (h4 id _)) hs
  obtain ⟨_, _, b1, b2⟩ := step_same hE hs h3
  obtain ⟨n1, n2⟩ := b2 h2
  have hf : freeAfter s op = s.freeIds := by cases op <;> first | rfl | exact absurd rfl (h5 _)
  refine ⟨c1, c2, by rw [n1, n2, hf]; exact h.ids, fun i hi => ?_, fun i hi => by rw [n1]; exact h.old i hi⟩
  rcases b1 i (by rw [h1]; exact nofun) with k | k | k
  · rw [k]; exact h.blank i hi
  · have := ((h.ev.mem i).1 k).1
    rw [h.blank i hi] at this; exact absurd rfl this
  · exact absurd k.1 h2

theorem simOk_step {E : Env D} (hE : ∀ l, E.pick l ∉ l) {used0 used : List Nat} {s s' : St D} {m m' : Sim} {op : Op D} {r} (h : SimOk used0 s used)
    (hu : ∀ id, opId op = some id → id ∈ used) (hs : simStep E s m op = some (r, s', m')) : SimOk used0 s' (Held used op r) := by
  cases op with
  | acquire id u => simp only [simStep] at hs; split at hs <;> cases hs; exact h
  | write id d => simp only [simStep] at hs; cases hs; exact h
  | release id d pr => simp only [simStep] at hs; split at hs <;> cases hs; exact h
  | deinit id => simp only [simStep] at hs; split at hs <;> cases hs; exact h
  | init id e => simp only [simStep] at hs; split at hs <;> cases hs; exact h
  | extract id => simp only [simStep] at hs; split at hs <;> cases hs; exact h
  | flush =>
    simp only [simStep, Option.map_eq_some_iff] at hs
    obtain ⟨x, h1, h2⟩ := hs
    cases h2
    exact simOk_real hE (op := .flush) (r := .unit) h (by simp [step, h1]) rfl (by simp) (by simp) (by simp) (by simp)
  | client d =>
    simp only [simStep, Option.some.injEq, Prod.mk.injEq] at hs
    obtain ⟨rfl, rfl, rfl⟩ := hs
    exact simOk_real hE (op := .client d) h rfl rfl (by simp) (by simp) (by simp) (by simp)
  | retag q l => cases hs
  | alloc =>
    simp only [simStep, Option.some.injEq, Prod.mk.injEq] at hs
    obtain ⟨rfl, rfl, rfl⟩ := hs
    obtain ⟨c1, c2⟩ := step_core hE (op := .alloc) h.core h.ev (by simp) rfl
    refine ⟨c1, c2, (ids_alloc h.ids).1, fun i hi => ?_, fun i hi => ?_⟩
    · cases hf : s.freeIds with
      | nil =>
        rw [alloc_nil hf]
        show (if i = s.n then ({} : SB) else s.blocks i) = {}
        split
        · rfl
        · exact h.blank i hi
      | cons x rest => rw [alloc_cons hf]; exact h.blank i hi
    · have := h.old i hi
      cases hf : s.freeIds with
      | nil => rw [alloc_nil hf]; show i < s.n + 1; omega
      | cons x rest => rw [alloc_cons hf]; exact this
  | free id =>
    simp only [simStep] at hs
    split at hs <;> cases hs
    exact ⟨h.core.congr rfl rfl rfl rfl rfl rfl rfl, h.ev.congr rfl rfl, ids_free h.ids (hu id rfl), h.blank, h.old⟩

theorem simOk_run {E : Env D} (hE : ∀ l, E.pick l ∉ l) {s0 s : St D} {used0 used : List Nat} {m : Sim} {l : List (Op D × Res D)} (h0 : IdInv s0 used0)
    (h : SimRun E s0 used0 s m used l) : SimOk used0 s used := by
  induction h with
  | start => exact simOk_start h0
  | tick _ ih => exact ih
  | step op _ hu hs ih => exact simOk_step hE ih hu hs

theorem sim_step_blocks {E : Env D} (hE : ∀ l, E.pick l ∉ l) {used0 used : List Nat} {s s' : St D} {m m' : Sim} {op : Op D} {r} (h : SimOk used0 s used)
    (hs : simStep E s m op = some (r, s', m')) (i : Nat) : (s'.blocks i).refs = (s.blocks i).refs ∧ (s'.blocks i).isInitialized = (s.blocks i).isInitialized ∧
      ((s.blocks i).isAcquired = true → s'.blocks i = s.blocks i) := by
  have same : s'.blocks i = s.blocks i → (s'.blocks i).refs = (s.blocks i).refs ∧ (s'.blocks i).isInitialized = (s.blocks i).isInitialized ∧
      ((s.blocks i).isAcquired = true → s'.blocks i = s.blocks i) := fun e => ⟨by rw [e], by rw [e], fun _ => e⟩
  cases op with
  | acquire id u => simp only [simStep] at hs; split at hs <;> cases hs; exact same rfl
  | write id d => simp only [simStep] at hs; cases hs; exact same rfl
  | release id d pr => simp only [simStep] at hs; split at hs <;> cases hs; exact same rfl
  | deinit id => simp only [simStep] at hs; split at hs <;> cases hs; exact same rfl
  | init id e => simp only [simStep] at hs; split at hs <;> cases hs; exact same rfl
  | extract id => simp only [simStep] at hs; split at hs <;> cases hs; exact same rfl
  | flush =>
    simp only [simStep, Option.map_eq_some_iff] at hs
    obtain ⟨x, h1, h2⟩ := hs
    cases h2
    obtain ⟨y, g1, _, _, g4, _⟩ := flushAux_spec E hE s.evict.length h.core h.ev
    have h1 : flushAux E s.evict.length s = some s' := h1
    rw [h1] at g1
    cases g1
    rcases g4.same i with k | ⟨p, k1, k2, k3, k4, k5, k6⟩
    · exact same k.1
    · refine ⟨by rw [k2, k4], ?_, fun ha => by simp [SB.isAcquired, k2] at ha⟩
      have hx : (s'.blocks i).ext ≠ none := by
        intro hc
        rw [hc] at k6
        split at k6
        · cases k6
        · rename_i hd
          rcases h.ev.valid i (by rw [k1]; exact nofun) k2 with v | v
          · exact hd v
          · obtain ⟨e, he⟩ := Option.ne_none_iff_exists'.1 v
            rw [he] at k6; cases k6
      obtain ⟨e, he⟩ := Option.ne_none_iff_exists'.1 hx
      simp [SB.isInitialized, SB.isInternal, SB.isExternal, k1, k3, k5, he]
  | client d =>
    simp only [simStep, Option.some.injEq, Prod.mk.injEq] at hs
    obtain ⟨rfl, rfl, rfl⟩ := hs
    exact same rfl
  | retag q l => cases hs
  | alloc =>
    simp only [simStep, Option.some.injEq, Prod.mk.injEq] at hs
    obtain ⟨rfl, rfl, rfl⟩ := hs
    refine same ?_
    cases hf : s.freeIds with
    | nil =>
      rw [alloc_nil hf]
      show (if i = s.n then ({} : SB) else s.blocks i) = s.blocks i
      split
      · rename_i e
        subst e
        exact (h.blank _ (fun hc => absurd (h.old _ hc) (Nat.lt_irrefl _))).symm
      · rfl
    | cons x rest => rw [alloc_cons hf]
  | free id =>
    simp only [simStep] at hs
    split at hs <;> cases hs
    exact same rfl

theorem sim_blocks {E : Env D} (hE : ∀ l, E.pick l ∉ l) {s0 s : St D} {used0 used : List Nat} {m : Sim} {l : List (Op D × Res D)} (h0 : IdInv s0 used0)
    (h : SimRun E s0 used0 s m used l) (i : Nat) : (s.blocks i).refs = (s0.blocks i).refs ∧ (s.blocks i).isInitialized = (s0.blocks i).isInitialized ∧
      ((s0.blocks i).isAcquired = true → s.blocks i = s0.blocks i) := by
  induction h with
  | start => exact ⟨rfl, rfl, fun _ => rfl⟩
  | tick _ ih => exact ih
  | step op h _ hs ih =>
    obtain ⟨a1, a2, a3⟩ := sim_step_blocks hE (simOk_run hE h0 h) hs i
    obtain ⟨b1, b2, b3⟩ := ih
    refine ⟨a1.trans b1, a2.trans b2, fun ha => ?_⟩
    have e := b3 ha
    rw [← e] at ha
    rw [a3 ha, e]

/-! ### Names -/

/-- What the client sees of the identifiers: every allocation gives the smallest number not in use. -/
inductive Names (used0 : List Nat) : List (Option Nat) → List Nat → List Nat → Prop
  | start : Names used0 [] [] used0
  | alloc {c r used n} (h : Names used0 c r used) (hn : Least used n) : Names used0 (c ++ [none]) (r ++ [n]) (n :: used)
  | free {c r used} (id : Nat) (h : Names used0 c r used) : Names used0 (c ++ [some id]) r (used.filter fun x => x != id)

theorem least_unique {u v : List Nat} {m n : Nat} (huv : ∀ i, i ∈ u ↔ i ∈ v) (h1 : Least u m) (h2 : Least v n) : m = n := by
  rcases Nat.lt_trichotomy m n with h | h | h
  · exact absurd ((huv m).2 (h2.2 m h)) h1.1
  · exact h
  · exact absurd ((huv n).1 (h1.2 n h)) h2.1

theorem names_unique {u v : List Nat} (huv : ∀ i, i ∈ u ↔ i ∈ v) {c : List (Option Nat)} {r used : List Nat} (h : Names u c r used) :
    ∀ {r' used'}, Names v c r' used' → r = r' ∧ ∀ i, i ∈ used ↔ i ∈ used' := by
  induction h with
  | start =>
    intro r' used' h'
    generalize hc : ([] : List (Option Nat)) = c at h'
    cases h' with
    | start => exact ⟨rfl, huv⟩
    | alloc h hn => simp at hc
    | free id h => simp at hc
  | @alloc c r used n h hn ih =>
    intro r' used' h'
    generalize hc : c ++ [none] = c' at h'
    cases h' with
    | start => simp at hc
    | @alloc c2 r2 u2 n2 h2 hn2 =>
      obtain ⟨rfl, _⟩ := List.append_inj' hc rfl
      obtain ⟨rfl, e⟩ := ih h2
      have := least_unique e hn hn2
      subst this
      exact ⟨rfl, fun i => by simp only [List.mem_cons, e i]⟩
    | free id h => have := (List.append_inj' hc rfl).2; simp at this
  | @free c r used id h ih =>
    intro r' used' h'
    generalize hc : c ++ [some id] = c' at h'
    cases h' with
    | start => simp at hc
    | alloc h hn => have := (List.append_inj' hc rfl).2; simp at this
    | @free c2 r2 u2 id2 h2 =>
      obtain ⟨rfl, e2⟩ := List.append_inj' hc rfl
      simp only [List.cons.injEq, Option.some.injEq, and_true] at e2
      subst e2
      obtain ⟨rfl, e⟩ := ih h2
      exact ⟨rfl, fun i => by simp only [List.mem_filter, e i]⟩

theorem allocated_snoc (l : List (Op D × Res D)) (x : Op D × Res D) : allocated (l ++ [x]) = allocated l ++ allocated [x] := by
  simp [allocated, List.filterMap_append]

theorem calls_snoc (l : List (Op D × Res D)) (x : Op D × Res D) : (l ++ [x]).filterMap (fun x => idCall x.1) = l.filterMap (fun x => idCall x.1) ++ (idCall x.1).toList := by
  rw [List.filterMap_append]
  cases h : idCall x.1 <;> simp [h]

/-- A step of a run as a step of `Names`. -/
theorem names_step {used0 used : List Nat} {l : List (Op D × Res D)} {op : Op D} {r : Res D} (h : Names used0 (l.filterMap fun x => idCall x.1) (allocated l) used)
    (ha : op = .alloc → ∃ n, r = .id n ∧ Least used n) (hr : op ≠ .alloc → ∀ n, r ≠ .id n) :
    Names used0 ((l ++ [(op, r)]).filterMap fun x => idCall x.1) (allocated (l ++ [(op, r)])) (Held used op r) := by
  rw [calls_snoc, allocated_snoc]
  by_cases hop : op = .alloc
  · obtain ⟨n, rfl, hn⟩ := ha hop
    subst hop
    exact h.alloc hn
  · have e : allocated [(op, r)] = [] := by
      cases r with
      | id n => exact absurd rfl (hr hop n)
      | _ => rfl
    rw [e, List.append_nil]
    cases op with
    | alloc => exact absurd rfl hop
    | free id => exact h.free id
    | _ => simpa [idCall, Held] using h

theorem sim_names {E : Env D} (hE : ∀ l, E.pick l ∉ l) {s0 s : St D} {used0 used : List Nat} {m : Sim} {l : List (Op D × Res D)} (h0 : IdInv s0 used0)
    (h : SimRun E s0 used0 s m used l) : Names used0 (l.filterMap fun x => idCall x.1) (allocated l) used := by
  induction h with
  | start => exact .start
  | tick _ ih => exact ih
  | @step s m used l r s' m' op h hu hs ih =>
    have ok := simOk_run hE h0 h
    refine names_step ih (fun ho => ?_) (fun ho n hc => ?_)
    · subst ho
      simp only [simStep, Option.some.injEq, Prod.mk.injEq] at hs
      exact ⟨_, hs.1.symm, (ids_alloc ok.ids).2⟩
    · subst hc
      cases op with
      | alloc => exact ho rfl
      | write id d => simp [simStep] at hs
      | client d => simp [simStep] at hs
      | retag q l => cases hs
      | flush => simp [simStep] at hs
      | _ => simp only [simStep] at hs; split at hs <;> cases hs

theorem opRun_inv {E : Env D} (hE : ∀ l, E.pick l ∉ l) {s0 s : St D} {used0 used : List Nat} {l : List (Op D × Res D)} (h0 : IdInv s0 used0)
    (h : OpRun E s0 used0 s used l) : IdInv s used ∧ Names used0 (l.filterMap fun x => idCall x.1) (allocated l) used := by
  induction h with
  | start => exact ⟨h0, .start⟩
  | @step s used l r s' op h hu ha hs ih =>
    refine ⟨id_step hE op ih.1 hu ha hs, names_step ih.2 (fun ho => ?_) (fun ho n hc => ?_)⟩
    · subst ho
      simp only [step, Option.some.injEq, Prod.mk.injEq] at hs
      exact ⟨_, hs.1.symm, (ids_alloc ih.1.ids).2⟩
    · subst hc
      cases op with
      | alloc => exact ho rfl
      | client d => simp [step] at hs
      | retag q l => simp only [step] at hs; split at hs <;> simp at hs
      | _ => simp [step] at hs

/-- The end of a simulation run, as the start of a run. -/
theorem simOk_end {used0 used : List Nat} {s t : St D} (h : SimOk used0 s used) (hu : ∀ i, i ∈ used0 → i ∈ used)
    (h1 : t.n = s.n) (h2 : t.freeIds = s.freeIds) (h3 : t.blocks = s.blocks) (hc : Core t none) (hev : Ev t) : IdInv t used :=
  ⟨hc, hev, by rw [h2]; exact h.ids.nd, by rw [h1, h2]; exact h.ids.all, fun i hi => by rw [h3]; exact h.blank i (fun hc => hi (hu i hc))⟩

/-! ### The destructors -/

/-- The states differ only in blocks, free internal blocks and evictable blocks. -/
def SameRest (s t : St D) : Prop :=
  t.max = s.max ∧ t.remaining = s.remaining ∧ t.n = s.n ∧ t.freeIds = s.freeIds ∧ t.held = s.held

theorem SameRest.trans {s t u : St D} (h1 : SameRest s t) (h2 : SameRest t u) : SameRest s u :=
  ⟨h2.1.trans h1.1, h2.2.1.trans h1.2.1, h2.2.2.1.trans h1.2.2.1, h2.2.2.2.1.trans h1.2.2.2.1, h2.2.2.2.2.trans h1.2.2.2.2⟩

theorem endAlgo_ok (l : List Nat) : ∀ (s : St D), l.Nodup → (∀ i ∈ l, (s.blocks i).refs = 0 ∧ (s.blocks i).int ≠ none) →
    ∃ s', endAlgo l s = some s' ∧ SameRest s s' ∧ s'.free.length = s.free.length + l.length ∧
      ∀ j, s'.blocks j = if j ∈ l then {} else s.blocks j := by
  induction l with
  | nil => intro s _ _; exact ⟨_, rfl, ⟨rfl, rfl, rfl, rfl, rfl⟩, rfl, fun j => by simp⟩
  | cons id l ih =>
    intro s hnd hl
    obtain ⟨n1, n2⟩ := List.nodup_cons.1 hnd
    obtain ⟨r0, i0⟩ := hl id (List.mem_cons_self ..)
    obtain ⟨p, hp⟩ := Option.ne_none_iff_exists'.1 i0
    have hw : wipe s id = some (some p, s.set id {}) := by simp [wipe, SB.isAcquired, r0, hp]
    obtain ⟨s', h1, h2, h3, h4⟩ := ih (giveBack (s.set id {}) p) n2 (by
      intro i hi
      have : i ≠ id := fun hc => n1 (hc ▸ hi)
      show (((s.set id {}).blocks i)).refs = 0 ∧ ((s.set id {}).blocks i).int ≠ none
      rw [set_other s _ this]
      exact hl i (List.mem_cons_of_mem _ hi))
    refine ⟨s', by simp only [endAlgo, hw, Option.bind_some]; exact h1, h2, ?_, fun j => ?_⟩
    · rw [h3]; simp [giveBack]; omega
    · rw [h4 j]
      show (if j ∈ l then ({} : SB) else (s.set id {}).blocks j) = _
      by_cases e : j = id
      · subst e; simp
      · rw [set_other s _ e]; simp [e]

theorem endBlocks_ok (l : List Nat) : ∀ (k : Nat) (s : St D), l.Nodup → (∀ i ∈ l, (s.blocks i).refs = 0 → (s.blocks i).int = none) →
    ∃ s', endBlocks l k s = some (k, s') ∧ SameRest s s' ∧ ∀ j, s'.blocks j = if j ∈ l ∧ (s.blocks j).refs = 0 then {} else s.blocks j := by
  induction l with
  | nil => intro k s _ _; exact ⟨_, rfl, ⟨rfl, rfl, rfl, rfl, rfl⟩, fun j => by simp⟩
  | cons id l ih =>
    intro k s hnd hl
    obtain ⟨n1, n2⟩ := List.nodup_cons.1 hnd
    by_cases hr : (s.blocks id).refs = 0
    · have hi := hl id (List.mem_cons_self ..) hr
      have hw : wipe s id = some (none, s.set id {}) := by simp [wipe, SB.isAcquired, hr, hi]
      obtain ⟨s', h1, h2, h3⟩ := ih k (s.set id {}) n2 (by
        intro i hi
        have : i ≠ id := fun hc => n1 (hc ▸ hi)
        rw [set_other s _ this]
        exact hl i (List.mem_cons_of_mem _ hi))
      refine ⟨s', ?_, h2, fun j => ?_⟩
      · have : (s.blocks id).isAcquired = false := by simp [SB.isAcquired, hr]
        simp only [endBlocks, this, Bool.false_eq_true, if_false, hw, Option.bind_some, Option.isSome_none]
        exact h1
      · rw [h3 j]
        by_cases e : j = id
        · subst e; simp [hr]
        · rw [set_other s _ e]; simp [e]
    · obtain ⟨s', h1, h2, h3⟩ := ih k s n2 fun i hi => hl i (List.mem_cons_of_mem _ hi)
      refine ⟨s', ?_, h2, fun j => ?_⟩
      · have : (s.blocks id).isAcquired = true := by simp [SB.isAcquired]; omega
        simp only [endBlocks, this, if_true]
        exact h1
      · rw [h3 j]
        by_cases e : j = id
        · subst e; simp [hr]
        · simp [e]

/-- Acquired and evictable blocks are the ones with internal blocks. -/
theorem attached_split {s : St D} (h : Core s none) (he : Ev s) : attachedCount s = acquiredCount s + s.evict.length := by
  have hp : ((List.range s.n).filter fun i => (s.blocks i).isInternal).Perm (((List.range s.n).filter fun i => (s.blocks i).isAcquired) ++ s.evict.map (·.2)) := by
    refine (List.perm_ext_iff_of_nodup (List.nodup_range.sublist List.filter_sublist) (List.nodup_append.2 ⟨List.nodup_range.sublist List.filter_sublist, he.nd, fun a ha b hb hc => ?_⟩)).2 fun i => ?_
    · subst hc
      have h1 := (List.mem_filter.1 ha).2
      have h2 := ((he.mem a).1 hb).2
      simp [SB.isAcquired, h2] at h1
    · simp only [List.mem_filter, List.mem_range, List.mem_append, he.mem, SB.isInternal, SB.isAcquired, decide_eq_true_eq]
      constructor
      · rintro ⟨k1, k2⟩
        rcases Nat.eq_zero_or_pos (s.blocks i).refs with z | z
        · exact .inr ⟨(by intro hc; rw [hc] at k2; cases k2), z⟩
        · exact .inl ⟨k1, z⟩
      · rintro (⟨k1, k2⟩ | ⟨k1, k2⟩)
        · refine ⟨k1, ?_⟩
          cases hq : (s.blocks i).int with
          | none => exact absurd hq (h.refsInt i k2)
          | some p => rfl
        · obtain ⟨p, hp⟩ := Option.ne_none_iff_exists'.1 k1
          exact ⟨(h.att i p hp).1, by rw [hp]; rfl⟩
  have := hp.length_eq
  rw [List.length_append, List.length_map] at this
  exact this

theorem destroy_ok {s : St D} (h : Core s none) (he : Ev s) (hb : s.freeIds.length = s.n → ∀ i, s.blocks i = {}) :
    ∃ s', destroy s = some ((acquiredCount s : Int), s') ∧ SameRest s s' ∧ ∀ i, s'.blocks i = if (s.blocks i).refs = 0 then {} else s.blocks i := by
  have hd := drain_perm s.mode _ s.evict (Nat.le_refl _)
  have hids : ((drain s.mode s.evict.length s.evict).map (·.2)).Perm (s.evict.map (·.2)) := hd.map _
  obtain ⟨s1, a1, a2, a3, a4⟩ := endAlgo_ok ((drain s.mode s.evict.length s.evict).map (·.2)) s (hids.nodup_iff.2 he.nd) (fun i hi => by
    have := (he.mem i).1 (hids.mem_iff.1 hi)
    exact ⟨this.2, this.1⟩)
  have a4' : ∀ j, s1.blocks j = if (s.blocks j).refs = 0 ∧ (s.blocks j).int ≠ none then {} else s.blocks j := by
    intro j
    rw [a4 j]
    by_cases e : (s.blocks j).refs = 0 ∧ (s.blocks j).int ≠ none
    · rw [if_pos e, if_pos (hids.mem_iff.2 ((he.mem j).2 ⟨e.2, e.1⟩))]
    · rw [if_neg e, if_neg (fun hc => e ⟨((he.mem j).1 (hids.mem_iff.1 hc)).2, ((he.mem j).1 (hids.mem_iff.1 hc)).1⟩)]
  have hacc := account h
  have hsp := attached_split h he
  have hlen : s1.free.length = s.free.length + s.evict.length := by rw [a3, hids.length_eq, List.length_map]
  obtain ⟨m1, m2, m3, m4, m5⟩ := a2
  have hlost : (((s1.max - s1.remaining : Nat) : Int) - ((s1.free.length + 0 : Nat) : Int)) = (acquiredCount s : Int) := by
    rw [m1, m2, hlen]; omega
  by_cases hn : s1.freeIds.length ≠ s1.n
  · obtain ⟨s', b1, b2, b3⟩ := endBlocks_ok (List.range s1.n) 0 s1 List.nodup_range (fun i _ hr => by
      rw [a4' i] at hr ⊢
      split
      · rfl
      · rename_i hc
        rw [if_neg hc] at hr
        by_cases hz : (s.blocks i).int = none
        · exact hz
        · exact absurd ⟨hr, hz⟩ hc)
    refine ⟨s', ?_, SameRest.trans ⟨m1, m2, m3, m4, m5⟩ b2, fun i => ?_⟩
    · unfold destroy
      rw [a1, Option.bind_some, if_pos hn, b1, Option.map_some]
      simp only [hlost]
    · rw [b3 i, a4' i]
      simp only [List.mem_range, m3]
      by_cases hr : (s.blocks i).refs = 0
      · by_cases hz : (s.blocks i).int = none
        · simp only [hr, hz, ne_eq, not_true_eq_false, and_false, if_false, and_true, if_true]
          split
          · rfl
          · rename_i hge
            have e1 : (s.blocks i).ext = none := by
              cases hx : (s.blocks i).ext with
              | none => rfl
              | some e => exact absurd (h.extLive i e hx).1 hge
            have e2 : (s.blocks i).dirty = false := by
              cases hx : (s.blocks i).dirty with
              | false => rfl
              | true => exact absurd hz (h.dirtyInt i hx)
            cases hbk : s.blocks i with
            | mk ext int dirty refs => rw [hbk] at e1 e2 hz hr; simp only at e1 e2 hz hr; subst e1 e2 hz hr; rfl
        · simp [hr, hz]
      · simp [hr]
  · simp only [ne_eq, Decidable.not_not] at hn
    have hbl := hb (by rw [← m3, ← m4]; exact hn)
    refine ⟨s1, ?_, ⟨m1, m2, m3, m4, m5⟩, fun i => ?_⟩
    · unfold destroy
      rw [a1, Option.bind_some, if_neg (by simpa using hn), Option.map_some]
      simp only [hlost]
    · rw [a4' i, hbl i]; simp

theorem live_after {s s' : St D} (h1 : SameRest s s') (h2 : ∀ i, s'.blocks i = if (s.blocks i).refs = 0 then {} else s.blocks i) :
    s'.live = acquiredExt s ++ s.held := by
  obtain ⟨_, _, m3, _, m5⟩ := h1
  unfold St.live acquiredExt
  rw [m3, m5]
  congr 1
  congr 1
  funext i
  rw [h2 i]
  by_cases hr : (s.blocks i).refs = 0
  · simp [hr, SB.isAcquired]
  · have : 0 < (s.blocks i).refs := by omega
    simp [hr, SB.isAcquired, this]

/-! ### Concrete runs -/

def heldOk (s : St D) : Op D → Bool
  | .init _ (some e) => decide (e ∈ s.held)
  | _ => true
def usedOk (used : List Nat) (op : Op D) : Bool :=
  match opId op with
  | some id => decide (id ∈ used)
  | none => true

theorem heldOk_ok {s : St D} {op : Op D} (h : heldOk s op = true) : ∀ id e, op = .init id (some e) → e ∈ s.held := by
  intro id e he; subst he; exact of_decide_eq_true h
theorem usedOk_ok {used : List Nat} {op : Op D} (h : usedOk used op = true) : ∀ id, opId op = some id → id ∈ used := by
  intro id he; simp only [usedOk, he] at h; exact of_decide_eq_true h

/-- Calls made one after the other, with their results. -/
def playOps (E : Env D) : List (Op D) → St D → List Nat → List (Op D × Res D) → Option (St D × List Nat × List (Op D × Res D))
  | [], s, used, l => some (s, used, l)
  | op :: ops, s, used, l =>
    if usedOk used op && heldOk s op then
      match step E s op with
      | some (r, s') => playOps E ops s' (Held used op r) (l ++ [(op, r)])
      | none => none
    else none

theorem playOps_run {E : Env D} {s0 : St D} {used0 : List Nat} (ops : List (Op D)) : ∀ {s used l x}, OpRun E s0 used0 s used l → playOps E ops s used l = some x →
    OpRun E s0 used0 x.1 x.2.1 x.2.2 := by
  induction ops with
  | nil => intro s used l x h hp; cases hp; exact h
  | cons op ops ih =>
    intro s used l x h hp
    simp only [playOps] at hp
    split at hp
    · rename_i hc
      rw [Bool.and_eq_true] at hc
      split at hp
      · rename_i r s' hs
        exact ih (.step op h (usedOk_ok hc.1) (heldOk_ok hc.2) hs) hp
      · cases hp
    · cases hp

theorem opRun_hist {E : Env D} {s0 s : St D} {used0 used : List Nat} {l : List (Op D × Res D)} (h0 : IdHist E s0 used0) (h : OpRun E s0 used0 s used l) : IdHist E s used := by
  induction h with
  | start => exact h0
  | step op _ hu ha hs ih => exact .step op ih hu ha hs

theorem playOps_hist {E : Env D} {m z : Nat} {mem disk : Nat → D} (ops : List (Op D)) {x} (hp : playOps E ops (init m z mem disk) [] [] = some x) : IdHist E x.1 x.2.1 :=
  opRun_hist (.start m z mem disk) (playOps_run ops .start hp)

/-- Calls in simulation mode made one after the other. -/
def playSim (E : Env D) : List (Op D) → St D → Sim → List Nat → List (Op D × Res D) → Option (St D × Sim × List Nat × List (Op D × Res D))
  | [], s, m, used, l => some (s, m, used, l)
  | op :: ops, s, m, used, l =>
    if usedOk used op then
      match simStep E s m op with
      | some (r, s', m') => playSim E ops s' m' (Held used op r) (l ++ [(op, r)])
      | none => none
    else none

theorem playSim_run {E : Env D} {s0 : St D} {used0 : List Nat} (ops : List (Op D)) : ∀ {s m used l x}, SimRun E s0 used0 s m used l → playSim E ops s m used l = some x →
    SimRun E s0 used0 x.1 x.2.1 x.2.2.1 x.2.2.2 := by
  induction ops with
  | nil => intro s m used l x h hp; cases hp; exact h
  | cons op ops ih =>
    intro s m used l x h hp
    simp only [playSim] at hp
    split at hp
    · rename_i hc
      split at hp
      · rename_i r s' m' hs
        exact ih (.step op h (usedOk_ok hc) hs) hp
      · cases hp
    · cases hp

/-- Calls, a simulation, and calls after it. -/
def thru (q : St Nat → Sim → St Nat) (a b c : List (Op Nat)) (P : List Nat → List Nat → List (Op Nat × Res Nat) → List (Op Nat × Res Nat) → Bool) : Bool :=
  match playOps exE a (init 2 1 (fun _ => 0) (fun _ => 0)) [] [] with
  | none => false
  | some (s0, u0, _) =>
    match playSim exE b (toSim s0) (Sim.start s0) u0 [] with
    | none => false
    | some (s1, m, u1, l1) =>
      match playOps exE c (q s1 m) u1 [] with
      | none => false
      | some (_, _, l2) => P u0 u1 l1 l2

theorem thru_ok {q : St Nat → Sim → St Nat} {a b c : List (Op Nat)} {P : List Nat → List Nat → List (Op Nat × Res Nat) → List (Op Nat × Res Nat) → Bool} (h : thru q a b c P = true) :
    ∃ s0 u0 s1 m u1 l1 s2 u2 l2, IdHist exE s0 u0 ∧ SimRun exE s0 u0 s1 m u1 l1 ∧ OpRun exE (q s1 m) u1 s2 u2 l2 ∧ P u0 u1 l1 l2 = true := by
  unfold thru at h
  split at h
  · cases h
  · rename_i s0 u0 _ h1
    split at h
    · cases h
    · rename_i s1 m u1 l1 h2
      split at h
      · cases h
      · rename_i s2 u2 l2 h3
        exact ⟨s0, u0, s1, m, u1, l1, s2, u2, l2, playOps_hist a h1, playSim_run b .start h2, playOps_run c .start h3, h⟩

end Foxxll.Swap

namespace Foxxll.Ahead

variable {D : Type}

theorem waitWrite_ids {s s' : St D} {g : Nat} (h : waitWrite s g = some s') : s'.b.freeIds = s.b.freeIds := by
  unfold waitWrite at h
  split at h
  · cases h; rfl
  · simp only [Option.bind_eq_some_iff, Option.map_eq_some_iff] at h
    obtain ⟨s1, h1, s2, h2, rfl⟩ := h
    show s2.b.freeIds = _
    rw [diskSteps_ids _ h2, diskSteps_ids _ h1]

theorem waitGiver_ids {s s' : St D} {c : Nat} (h : waitGiver s c = some s') : s'.b.freeIds = s.b.freeIds := by
  unfold waitGiver at h
  split at h
  · cases h
  · split at h
    · cases h; rfl
    · simp only [Option.bind_eq_some_iff, Option.map_eq_some_iff] at h
      obtain ⟨s1, h1, m, h2, rfl⟩ := h
      exact (waitWrite_ids h1 : s1.b.freeIds = _)

theorem waitRead_ids {s s' : St D} {c : Nat} (h : waitRead s c = some s') : s'.b.freeIds = s.b.freeIds := by
  unfold waitRead at h
  simp only [Option.bind_eq_some_iff] at h
  obtain ⟨s1, h1, h2⟩ := h
  rw [← waitGiver_ids h1]
  split at h2
  · cases h2
  · split at h2
    · cases h2; rfl
    · rename_i r _
      simp only [Option.bind_eq_some_iff, Option.map_eq_some_iff] at h2
      obtain ⟨s2, h3, m, h4, rfl⟩ := h2
      rw [← diskSteps_ids _ h3]
      show (doRead s2 r).b.freeIds = _
      unfold doRead
      split <;> rfl

theorem stopBlocks_ids (l : List Nat) : ∀ {s s' : St D}, stopBlocks l s = some s' → s'.b.freeIds = s.b.freeIds := by
  induction l with
  | nil => intro s s' h; cases h; rfl
  | cons c l ih =>
    intro s s' h
    simp only [stopBlocks] at h
    split at h
    · exact ih h
    · simp only [Option.bind_eq_some_iff] at h
      obtain ⟨s1, h1, h2⟩ := h
      rw [← waitRead_ids h1]
      split at h2
      · cases h2
      · rw [ih h2]
        split <;> rfl

theorem stopWrites_ids (l : List Nat) : ∀ {s s' : St D}, stopWrites l s = some s' → s'.b.freeIds = s.b.freeIds := by
  induction l with
  | nil => intro s s' h; cases h; rfl
  | cons c l ih =>
    intro s s' h
    simp only [stopWrites, Option.bind_eq_some_iff] at h
    obtain ⟨s1, h1, h2⟩ := h
    rw [ih h2, waitWrite_ids h1]

theorem toOnline_ids {s : St D} {b : Swap.St D} (h : toOnline s = some b) : b.freeIds = s.b.freeIds := by
  simp only [toOnline, stop, Option.map_eq_some_iff, Option.bind_eq_some_iff] at h
  obtain ⟨s2, ⟨s1, h1, h2⟩, rfl⟩ := h
  show s2.b.freeIds = _
  rw [stopWrites_ids _ h2, stopBlocks_ids _ h1]

theorem core_of_bare {s : Swap.St D} {x : Option Nat} (h : Swap.Core s.bare x) : Swap.Core s x :=
  ⟨h.total, h.freeNd, h.freeLt, h.att, h.inj, h.handOk, h.cover, h.dirtyInt, h.refsInt, h.extOwn, h.extLive⟩
theorem ev_of_bare {s : Swap.St D} (h : Swap.Ev s.bare) : Swap.Ev s := ⟨h.nd, h.mem, h.valid⟩

/-- The scheduler after `deinit`, as it is found by the destructor. -/
theorem end_known (E : Swap.Env D) (hE : ∀ l, E.pick l ∉ l) {f : Bool} {s : St D} {a : Swap.Abs D} (h : Life E Known (.ahead f s) a) :
    ∃ b, toOnline s = some b ∧ Swap.Core b none ∧ Swap.Ev b ∧ b.n = s.b.n ∧ b.freeIds = s.b.freeIds ∧ (∀ i, (b.blocks i).refs = a.refs i) ∧
      (∀ i, a.refs i = 0 → a.data i = none → b.blocks i = {}) ∧ ∀ e, a.held e ≠ none ↔ e ∈ b.held := by
  letI := Slack.unit
  obtain ⟨b', h1, h2, h3⟩ := toOnline_ok (life_known E hE h)
  have h1 : toOnline s.bare = some b' := h1
  rw [bare_toOnline, Option.map_eq_some_iff] at h1
  obtain ⟨b, k1, rfl⟩ := h1
  have hr : ∀ i, (b.blocks i).refs = a.refs i := fun i => (h2.ok i).refs.symm
  refine ⟨b, k1, core_of_bare h2.core, ev_of_bare h2.ev, h3, toOnline_ids k1, hr, fun i ha hd => ?_, fun e => ?_⟩
  · have hi := h2.ok i
    have r0 : (b.blocks i).refs = 0 := by rw [hr]; exact ha
    have hdb : a.bare.data i = none := by show (a.data i).map _ = none; rw [hd]; rfl
    have hint : (b.blocks i).int = none := by
      cases hp : (b.blocks i).int with
      | none => rfl
      | some p => have := hi.idleIn p r0 hp; rw [hdb] at this; cases this
    have hdy : (b.blocks i).dirty = false := by
      cases hp : (b.blocks i).dirty with
      | false => rfl
      | true => exact absurd hint (h2.core.dirtyInt i hp)
    have hex : (b.blocks i).ext = none := by
      have := hi.idleOut r0 hdy
      rw [hdb] at this
      cases hp : (b.blocks i).ext with
      | none => rfl
      | some e =>
        have hp' : (b.bare.blocks i).ext = some e := hp
        rw [hp'] at this; cases this
    cases hbk : b.blocks i with
    | mk ext int dirty refs => rw [hbk] at hex hdy hint r0; simp only at hex hdy hint r0; subst hex hdy hint r0; rfl
  · have := (h2.held e).1
    rw [show b.held = b.bare.held from rfl, ← this]
    show _ ↔ (a.held e).map _ ≠ none
    cases a.held e <;> simp

end Foxxll.Ahead
