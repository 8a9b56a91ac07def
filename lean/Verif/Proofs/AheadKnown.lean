import Verif.Proofs.AheadLife
import Verif.Proofs.AheadErase

set_option linter.unusedVariables false

/-
offline_lru_prefetching: invariants of all histories, with and without the contents of the blocks; requests of `acquire`.
-/
namespace Foxxll.Ahead
open Foxxll.Swap (SB Env POp Elem Op Res Abs Allowed Expected)

variable {D : Type}

@[reducible] def Slack.no (D : Type) : Slack D := ⟨False, False.elim⟩
@[reducible] def Slack.unit : Slack Unit := ⟨True, fun _ _ _ => rfl⟩

theorem life_plain (E : Env D) (hE : ∀ l, E.pick l ∉ l) {dflt : D} (hf : ∀ d, E.fill d = dflt) {g : Stage D} {a : Abs D} (h : Life E Plain g a) : @LInv D (Slack.no D) dflt a g :=
  @life_inv D (Slack.no D) E hE dflt hf Plain (fun n l hq => ⟨hq.1, .inl hq.2⟩) g a h

attribute [local instance] Slack.unit

theorem known_tame {n : Nat} {l : List Elem} (h : Known n l) : (∀ x ∈ l, x.id < n) ∧ Tame Unit l := ⟨h, .inr trivial⟩

theorem life_known (E : Env D) (hE : ∀ l, E.pick l ∉ l) {g : Stage D} {a : Abs D} (h : Life E Known g a) : LInv () a.bare g.bare :=
  life_inv E.bare hE (fun _ => rfl) (fun _ _ hq => known_tame hq) (bare_life E h)

theorem start_known (E : Env D) (hE : ∀ l, E.pick l ∉ l) {b : Swap.St D} {a : Abs D} (h : Life E Known (.online b) a) (seq : List Elem) (orc : List (List Disk)) (hq : Known b.n seq) :
    (start E b seq orc).isSome = true := by
  obtain ⟨s, S, v, h1, _⟩ := start_ok E.bare hE (life_known E hE h) seq orc (known_tame hq)
  rw [bare_start] at h1
  cases hz : start E b seq orc with
  | none => rw [hz] at h1; cases h1
  | some s => rfl

theorem recorded_er (op : Op D) : op.bare.recorded = op.recorded := by cases op <;> rfl

theorem predicted_known (E : Env D) (hE : ∀ l, E.pick l ∉ l) {s : St D} {a : Abs D} (h : Life E Known (.ahead false s) a) {op : Op D} (hp : Predicted s op) (ha : Allowed a op) :
    (step E s op).isSome = true ↔ (∀ id u, op = .acquire id u → (s.b.blocks id).isInternal = true ∨ Swap.acquiredCount s.b < s.b.max) ∧ ∀ id, op = .extract id → (s.b.blocks id).isInternal = false := by
  obtain ⟨x, l, h1, h2⟩ := hp
  have := predicted_iff E.bare hE (fun _ => rfl) (life_known E hE h) (op := op.bare) ⟨x, l, h1, by rw [recorded_er]; exact h2⟩ (Swap.bare_allowed ha)
  rw [bare_step, Option.isSome_map] at this
  refine this.trans (and_congr ⟨fun hh id u e => ?_, fun hh id u e => ?_⟩ ⟨fun hh id e => ?_, fun hh id e => ?_⟩)
  · exact hh id u (by rw [e]; rfl)
  · cases op <;> cases e; exact hh id u rfl
  · exact hh id (by rw [e]; rfl)
  · cases op <;> cases e; exact hh id rfl

theorem other_known (E : Env D) (hE : ∀ l, E.pick l ∉ l) {f : Bool} {s : St D} {a : Abs D} (h : Life E Known (.ahead f s) a) :
    (∀ c d, Allowed a (.write c d) → (step E s (.write c d)).isSome = true) ∧ (step E s .flush).isSome = true ∧ (toOnline s).isSome = true := by
  have hl := life_known E hE h
  obtain ⟨b, h1, _⟩ := toOnline_ok hl
  obtain ⟨S, v, k, _⟩ := hl
  refine ⟨fun c d ha => ?_, ?_, ?_⟩
  · obtain ⟨b, v', h2, _⟩ := write_inv E.bare k c () (Swap.bare_allowed (op := .write c d) ha)
    have h3 : (step E.bare s.bare (Op.write c d).bare).isSome = true := by
      show (Option.map _ (Swap.write s.bare.b c ())).isSome = true
      rw [h2]; rfl
    rw [bare_step, Option.isSome_map] at h3; exact h3
  · obtain ⟨s', h2, _⟩ := flush_ok E.bare hE k
    have h3 : (step E.bare s.bare (Op.flush : Op D).bare).isSome = true := by
      show (Option.map _ (flush E.bare s.bare)).isSome = true
      rw [h2]; rfl
    rw [bare_step, Option.isSome_map] at h3; exact h3
  · rw [bare_toOnline] at h1
    cases hz : toOnline s with
    | none => rw [hz] at h1; cases h1
    | some s => rfl

theorem attached_known (E : Env D) (hE : ∀ l, E.pick l ∉ l) {f : Bool} {s : St D} {a : Abs D} (h : Life E Known (.ahead f s) a)
    {c : Nat} (hd : a.data c ≠ none) (hs : (scheduled s c).head? = some .acquire) : (s.b.blocks c).isInternal = true ∧ c ∉ s.freeEv := by
  obtain ⟨S, v, k, _⟩ := life_known E hE h
  have hops := k.plan.ops c
  simp only [curOps, List.nil_append] at hops
  have hfirst : First S c := by
    unfold First
    rw [← hops]; exact hs
  refine ⟨?_, fun hc => (k.plan.evF c hc).1 hfirst.hasAcq⟩
  cases hi : (s.b.blocks c).int with
  | some p => simp [SB.isInternal, hi]
  | none =>
    exfalso
    have hr : (s.b.blocks c).refs = 0 := by
      rcases Nat.eq_zero_or_pos (s.b.blocks c).refs with h1 | h1
      · exact h1
      · have e : v.blocks c = s.b.blocks c := by rw [k.base.blocks]; rfl
        rw [← e] at h1 hi
        exact absurd hi (k.sw.core.refsInt c h1)
    have e : v.blocks c = s.b.blocks c := by rw [k.base.blocks]; rfl
    have hdi : (s.b.blocks c).dirty = false := by
      cases hz : (s.b.blocks c).dirty with
      | false => rfl
      | true => rw [← e] at hz hi; exact absurd hi (k.sw.core.dirtyInt c hz)
    have := (k.sw.ok c).idleOut (by rw [e]; exact hr) (by rw [e]; exact hdi)
    rw [e] at this
    have hx : (s.b.blocks c).ext ≠ none := by
      intro hx; rw [hx] at this
      exact hd (Swap.map_none_iff.1 this)
    exact k.plan.pre c hfirst (by
      show (s.b.blocks c).isInitialized = true
      simp [SB.isInitialized, SB.isInternal, SB.isExternal, hi, hdi, Option.isSome_iff_ne_none, hx]) (by simp) hi

theorem reserved_known (E : Env D) (hE : ∀ l, E.pick l ∉ l) {f : Bool} {s : St D} {a : Abs D} (h : Life E Known (.ahead f s) a)
    {c : Nat} (hs : .acquire ∈ scheduled s c ∨ .acquireUninit ∈ scheduled s c) : (s.b.blocks c).isInternal = true ∨ ∃ m p, s.sched c = some m ∧ m.reserved = some p := by
  obtain ⟨S, v, k, _⟩ := life_known E hE h
  have hops := k.plan.ops c
  simp only [curOps, List.nil_append] at hops
  have hacq : HasAcq S c := by
    rcases hs with h1 | h1
    · exact ⟨_, by rw [← hops]; exact h1, rfl⟩
    · exact ⟨_, by rw [← hops]; exact h1, rfl⟩
  cases hi : (s.b.blocks c).int with
  | some p => exact .inl (by simp [SB.isInternal, hi])
  | none =>
    obtain ⟨p, hp⟩ := Option.ne_none_iff_exists'.1 (k.plan.acqRsv c hacq hi (by simp))
    obtain ⟨m, h1, h2⟩ := Option.bind_eq_some_iff.1 hp
    exact .inr ⟨m, p, h1, h2⟩

theorem ahead_known (E : Env D) (hE : ∀ l, E.pick l ∉ l) {s : St D} {a : Abs D} (h : Life E Known (.ahead false s) a) :
    ∃ S, s.pred = S ++ s.next ∧ (∀ c, scheduled s c = (S.filter fun x => x.id == c).map (·.op)) ∧
      ∀ x l, s.next = x :: l → (x.op = .acquire ∨ x.op = .acquireUninit) ∧ (s.b.blocks x.id).isInternal = false ∧
        Swap.attachedCount s.b + reservedCount s = s.b.max ∧
        ∀ c, (s.b.blocks c).isInternal = true → a.refs c = 0 → ∃ y ∈ S, y.id = c ∧ (y.op = .acquire ∨ y.op = .acquireUninit ∨ y.op = .deinit ∨ y.op = .extract) := by
  obtain ⟨S, v, k, k1, k2, k3⟩ := life_known E hE h
  refine ⟨S, k1, fun c => ?_, fun x l hn => ?_⟩
  · have hops := k.plan.ops c
    simp only [curOps, List.nil_append] at hops
    exact hops
  · obtain ⟨h1, h2, h3, h4, h5, h6⟩ := k3 x l hn
    have h2 : (s.b.blocks x.id).int = none := h2
    refine ⟨?_, by simp [SB.isInternal, h2], ?_, fun c hc hr => ?_⟩
    · cases hx : x.op <;> simp_all [isAcq]
    · have := account k
      rw [h4, h5] at this
      have e : ((List.range s.b.n).filter fun c => (rsv s c).isSome).length = reservedCount s := rfl
      have this : 0 + Swap.attachedCount s.b + ((List.range s.b.n).filter fun c => (rsv s c).isSome).length + 0 = s.b.max := this
      rw [e] at this
      simpa using this
    · have hr' : (v.blocks c).refs = 0 := by rw [← (k.sw.ok c).refs]; exact hr
      have hc' : (v.blocks c).int ≠ none := by
        rw [k.base.blocks]
        intro hz
        have hz : (s.b.blocks c).int = none := hz
        rw [SB.isInternal, hz] at hc; cases hc
      have hm := (k.base.vev c).1 ((k.sw.ev.mem c).2 ⟨hc', hr'⟩)
      rw [h6] at hm
      simp only [List.not_mem_nil, reduceCtorEq, or_false, false_or] at hm
      rcases k.plan.evS c hm with hh | ⟨_, hh⟩ | hh
      · obtain ⟨y, y1, y2, y3⟩ := hasAcq_iff.1 hh
        refine ⟨y, y1, y2, ?_⟩
        cases hy : y.op <;> simp_all [isAcq]
      · obtain ⟨y, y1, y2, y3⟩ := mem_opsIn.1 hh
        exact ⟨y, y1, y2, .inr (.inr (.inl y3))⟩
      · have : ∀ l : List POp, shallClean l = true → .extract ∈ l := by
          intro l
          induction l with
          | nil => intro h; cases h
          | cons o l ih => intro h; cases o <;> simp_all [shallClean]
        obtain ⟨y, y1, y2, y3⟩ := mem_opsIn.1 (this _ hh)
        exact ⟨y, y1, y2, .inr (.inr (.inr y3))⟩

theorem account_known (E : Env D) (hE : ∀ l, E.pick l ∉ l) {f : Bool} {s : St D} {a : Abs D} (h : Life E Known (.ahead f s) a) :
    s.b.free.length + Swap.attachedCount s.b + reservedCount s + s.b.remaining = s.b.max := by
  obtain ⟨S, v, k, _⟩ := life_known E hE h
  exact account (s := s.bare) k

/-! ### Requests -/

/-- No completion handler has a read to start. -/
def Calm (s : St D) : Prop := ∀ g w, s.wsched g = some w → w.shallRead = true → w.phase = .handled

/-- No request is added, except by completion handlers. -/
structure Fewer (s s' : St D) : Prop where
  wr : ∀ g, s.wsched g = none → s'.wsched g = none
  calm : Calm s → Calm s' ∧ s'.reqs = s.reqs ∧ ∀ x ∈ s'.reads, x ∈ s.reads

theorem Fewer.refl (s : St D) : Fewer s s := ⟨fun _ h => h, fun h => ⟨h, rfl, fun _ hx => hx⟩⟩

theorem Fewer.trans {s t u : St D} (h1 : Fewer s t) (h2 : Fewer t u) : Fewer s u :=
  ⟨fun g h => h2.wr g (h1.wr g h), fun h => by
    obtain ⟨a1, a2, a3⟩ := h1.calm h
    obtain ⟨b1, b2, b3⟩ := h2.calm a1
    exact ⟨b1, b2.trans a2, fun x hx => a3 x (b3 x hx)⟩⟩

/-- Nothing about requests is changed. -/
theorem Fewer.same {s t : St D} (hw : t.wsched = s.wsched) (hq : t.reqs = s.reqs) (hr : t.reads = s.reads) : Fewer s t :=
  ⟨fun g h => by rw [hw]; exact h, fun h => ⟨by unfold Calm; rw [hw]; exact h, hq, fun x hx => by rw [hr] at hx; exact hx⟩⟩

theorem Fewer.setWrr {s : St D} {g : Nat} {w w' : Wrr} (hw : s.wsched g = some w) (hr : w'.shallRead = true → w'.phase = .handled ∨ w.shallRead = true ∧ w.phase ≠ .handled) : Fewer s (s.setWrr g (some w')) := by
  refine ⟨fun i hi => ?_, fun h => ⟨fun i u hu hs => ?_, rfl, fun x hx => hx⟩⟩
  · have : i ≠ g := by rintro rfl; rw [hw] at hi; cases hi
    show put s.wsched g (some w') i = none
    simp [put, this, hi]
  · have hu : put s.wsched g (some w') i = some u := hu
    by_cases e : i = g
    · subst e
      simp only [put, if_true, Option.some.injEq] at hu
      subst hu
      rcases hr hs with h1 | ⟨h1, h2⟩
      · exact h1
      · exact absurd (h i w hw h1) h2
    · simp only [put, e, if_false] at hu
      exact h i u hu hs

theorem Fewer.dropWrr (s : St D) (g : Nat) : Fewer s (s.setWrr g none) := by
  refine ⟨fun i hi => ?_, fun h => ⟨fun i u hu hs => ?_, rfl, fun x hx => hx⟩⟩
  · show put s.wsched g none i = none
    unfold put; split
    · rfl
    · exact hi
  · have hu : put s.wsched g none i = some u := hu
    unfold put at hu
    split at hu
    · cases hu
    · exact h i u hu hs

theorem diskStep_fewer {s s' : St D} {d : Disk} (h : diskStep s d = some s') : Fewer s s' := by
  cases d with
  | write g =>
    simp only [diskStep] at h
    split at h
    · rename_i w hw
      split at h
      · rename_i hp
        cases h
        exact (Fewer.setWrr (w' := { w with phase := .moved }) hw fun hs => .inr ⟨hs, by rw [hp]; simp⟩).trans (Fewer.same rfl rfl rfl)
      · cases h; exact .refl _
    · cases h; exact .refl _
  | flag g =>
    simp only [diskStep] at h
    split at h
    · rename_i w hw
      split at h
      · rename_i hp
        cases h
        exact Fewer.setWrr hw fun hs => .inr ⟨hs, by rw [hp]; simp⟩
      · cases h; exact .refl _
    · cases h; exact .refl _
  | handle g =>
    simp only [diskStep] at h
    split at h
    · rename_i w hw
      split at h
      · rename_i hp
        unfold doHandle at h
        simp only at h
        have hf : Fewer s (s.setWrr g (some { w with phase := .handled })) := Fewer.setWrr hw fun _ => .inl rfl
        split at h
        · rename_i hs
          split at h
          · cases h
          · unfold startRead at h
            split at h
            · cases h
              refine ⟨hf.wr, fun hc => ?_⟩
              have := hc g w hw hs
              rw [hp] at this; cases this
            · cases h
        · cases h; exact hf
      · cases h; exact .refl _
    · cases h; exact .refl _
  | read r =>
    simp only [diskStep, Option.some.injEq] at h
    subst h
    unfold doRead
    split
    · exact .refl _
    · exact ⟨fun g hg => hg, fun hc => ⟨hc, rfl, fun y hy => (List.mem_filter.1 hy).1⟩⟩

theorem diskSteps_fewer (l : List Disk) : ∀ {s s' : St D}, diskSteps s l = some s' → Fewer s s' := by
  induction l with
  | nil => intro s s' h; cases h; exact .refl _
  | cons d l ih =>
    intro s s' h
    obtain ⟨t, h1, h2⟩ := Option.bind_eq_some_iff.1 h
    exact (diskStep_fewer h1).trans (ih h2)

theorem sync_fewer {s s' : St D} (h : sync s = some s') : Fewer s s' := (Fewer.same (s := s) (t := { s with orc := s.orc.tail }) rfl rfl rfl).trans (diskSteps_fewer _ h)

theorem waitWrite_fewer {s s' : St D} {g : Nat} (h : waitWrite s g = some s') : Fewer s s' := by
  unfold waitWrite at h
  split at h
  · cases h; exact .refl _
  · obtain ⟨t, h1, h2⟩ := Option.bind_eq_some_iff.1 h
    obtain ⟨u, h3, h4⟩ := Option.map_eq_some_iff.1 h2
    subst h4
    exact ((sync_fewer h1).trans (diskSteps_fewer _ h3)).trans (.dropWrr u g)

theorem waitGiver_fewer {s s' : St D} {c : Nat} (h : waitGiver s c = some s') : Fewer s s' := by
  unfold waitGiver at h
  split at h
  · cases h
  · split at h
    · cases h; exact .refl _
    · obtain ⟨t, h1, h2⟩ := Option.bind_eq_some_iff.1 h
      obtain ⟨m, h3, h4⟩ := Option.map_eq_some_iff.1 h2
      subst h4
      exact (waitWrite_fewer h1).trans (.same rfl rfl rfl)

theorem doRead_fewer (s : St D) (r : Nat) : Fewer s (doRead s r) := diskStep_fewer (d := .read r) rfl

theorem waitRead_fewer {s s' : St D} {c : Nat} (h : waitRead s c = some s') : Fewer s s' := by
  unfold waitRead at h
  obtain ⟨t, h1, h⟩ := Option.bind_eq_some_iff.1 h
  refine (waitGiver_fewer h1).trans ?_
  split at h
  · cases h
  · split at h
    · cases h; exact .refl _
    · obtain ⟨u, h2, h⟩ := Option.bind_eq_some_iff.1 h
      obtain ⟨m, h3, h4⟩ := Option.map_eq_some_iff.1 h
      subst h4
      exact ((sync_fewer h2).trans (doRead_fewer u _)).trans (.same rfl rfl rfl)

theorem opDone_fewer {s s' : St D} {c : Nat} (h : opDone s c = some s') : Fewer s s' := by
  unfold opDone at h
  split at h
  · cases h
  · split at h
    · cases h
    · split at h
      · cases h
      · cases h; exact .same rfl rfl rfl
    · cases h; exact .same rfl rfl rfl

theorem begin_fewer {s s' : St D} {op : POp} {c : Nat} (h : begin_ s op c = some s') : Fewer s s' := by
  unfold begin_ at h
  split at h
  · cases h
  · rename_i l _
    split at h
    · exact (Fewer.same (s := s) (t := { s with pred := l }) rfl rfl rfl).trans (sync_fewer h)
    · cases h

theorem acquire_fewer (E : Env D) {s s' : St D} {c p : Nat} {u : Bool} (h : acquire E s c u = some (p, s')) : Fewer s s' := by
  unfold acquire at h
  obtain ⟨s0, h1, h⟩ := Option.bind_eq_some_iff.1 h
  refine (begin_fewer h1).trans ?_
  obtain ⟨s4, h2, h⟩ := Option.bind_eq_some_iff.1 h
  have f4 : Fewer s0 s4 := by
    split at h2
    · split at h2
      · cases h2; exact .refl _
      · split at h2
        · exact (Fewer.same (s := s0) (t := { s0 with schedEv := eraseId s0.schedEv c }) rfl rfl rfl).trans (waitRead_fewer h2)
        · cases h2
    · split at h2
      · cases h2
      · obtain ⟨s1, h3, h2⟩ := Option.bind_eq_some_iff.1 h2
        refine (waitGiver_fewer h3).trans ?_
        split at h2
        · cases h2
        · split at h2
          · cases h2
          · cases h2
            cases u <;> exact .same rfl rfl rfl
  refine f4.trans ?_
  split at h
  · cases h
  · obtain ⟨s5, h3, h4⟩ := Option.map_eq_some_iff.1 h
    cases h4
    exact (Fewer.same (s := s4) (t := s4.setBlk c { s4.blk c with refs := (s4.blk c).refs + 1 }) rfl rfl rfl).trans (opDone_fewer h3)

/-! ### Allocation of blocks -/

theorem diskStep_ids {s s' : St D} {d : Disk} (h : diskStep s d = some s') : s'.b.freeIds = s.b.freeIds := by
  cases d with
  | write g =>
    simp only [diskStep] at h
    split at h
    · split at h <;> (cases h; rfl)
    · cases h; rfl
  | flag g =>
    simp only [diskStep] at h
    split at h
    · split at h <;> (cases h; rfl)
    · cases h; rfl
  | handle g =>
    simp only [diskStep] at h
    split at h
    · split at h
      · unfold doHandle at h
        simp only at h
        split at h
        · split at h
          · cases h
          · unfold startRead at h
            split at h
            · cases h; rfl
            · cases h
        · cases h; rfl
      · cases h; rfl
    · cases h; rfl
  | read r =>
    simp only [diskStep, Option.some.injEq] at h
    subst h
    unfold doRead
    split <;> rfl

theorem diskSteps_ids (l : List Disk) : ∀ {s s' : St D}, diskSteps s l = some s' → s'.b.freeIds = s.b.freeIds := by
  induction l with
  | nil => intro s s' h; cases h; rfl
  | cons d l ih =>
    intro s s' h
    obtain ⟨t, h1, h2⟩ := Option.bind_eq_some_iff.1 h
    rw [ih h2, diskStep_ids h1]

theorem alloc_known (E : Env D) (hE : ∀ l, E.pick l ∉ l) {f : Bool} {s : St D} {a : Abs D} (h : Life E Known (.ahead f s) a)
    (hc : s.b.freeIds ≠ [] ∨ Calm s) : (step E s .alloc).isSome = true := by
  obtain ⟨S, v, k, _⟩ := life_known E hE h
  obtain ⟨s1, h1, _⟩ := sync_ok k
  rw [bare_sync] at h1
  obtain ⟨s2, h2, _⟩ := Option.map_eq_some_iff.1 h1
  show (Option.map _ (alloc s)).isSome = true
  rw [Option.isSome_map]
  unfold alloc
  rw [h2, Option.bind_some, if_neg]
  · rfl
  · rintro ⟨h3, h4⟩
    rcases hc with hc | hc
    · rw [diskSteps_ids _ h2] at h3
      exact hc h3
    · have hc2 := ((sync_fewer h2).calm hc).1
      unfold iteratorStored at h4
      rw [List.any_eq_true] at h4
      obtain ⟨g, _, hg⟩ := h4
      rw [beq_iff_eq] at hg
      obtain ⟨w, h5, h6⟩ := Option.map_eq_some_iff.1 hg
      simp only [Bool.and_eq_true, bne_iff_ne, ne_eq] at h6
      exact h6.2 (hc2 g w h5 h6.1)

end Foxxll.Ahead
