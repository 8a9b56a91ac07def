import Verif.Proofs.AheadInit

set_option linter.unusedSimpArgs false
set_option linter.unusedVariables false
set_option linter.unusedSectionVars false

/-
offline_lru_prefetching: the end of the schedule (`deinit`, switch to another algorithm).
-/
namespace Foxxll.Ahead
open Foxxll.Swap (SB Env POp Elem Op Res Abs Allowed Expected)

variable {D : Type} [Slack D]

/-- The same state with other sets of evictable blocks. -/
def St.ls (s : St D) (f g : List Nat) : St D := { s with freeEv := f, schedEv := g }

theorem ls_startRead (s : St D) (f g : List Nat) (c t : Nat) : startRead (s.ls f g) c t = (startRead s c t).map (·.ls f g) := by
  have e : startRead (s.ls f g) c t = match (s.blk c).int, (s.blk c).ext, s.sched t with
    | some p, some e, some m =>
      some { ((s.ls f g).setBlk c { s.blk c with dirty := false }).setMeta t (some { m with readReq := some s.reqs }) with
        reads := s.reads ++ [{ id := s.reqs, buf := p, ext := e }], reqs := s.reqs + 1 }
    | _, _, _ => none := rfl
  rw [e]
  unfold startRead
  cases (s.blk c).int <;> cases (s.blk c).ext <;> cases s.sched t <;> rfl

theorem ls_doRead (s : St D) (f g : List Nat) (r : Nat) : doRead (s.ls f g) r = (doRead s r).ls f g := by
  have e : doRead (s.ls f g) r = match s.reads.find? (fun x => x.id == r) with
    | none => s.ls f g
    | some x => { s.ls f g with reads := s.reads.filter (fun y => y.id != r), b := { s.b with mem := fun p => if p = x.buf then s.b.disk x.ext else s.b.mem p } } := rfl
  rw [e]
  unfold doRead
  cases s.reads.find? (fun x => x.id == r) <;> rfl

theorem ls_doHandle (s : St D) (f g : List Nat) (j : Nat) (w : Wrr) : doHandle (s.ls f g) j w = (doHandle s j w).map (·.ls f g) := by
  have key : ∀ o : Option Nat, (match o with
      | none => none
      | some t => startRead ((s.ls f g).setWrr j (some { w with phase := .handled })) w.target t) =
      (match o with
      | none => none
      | some t => startRead (s.setWrr j (some { w with phase := .handled })) w.target t : Option (St D)).map (·.ls f g) := by
    intro o
    cases o with
    | none => rfl
    | some t => exact ls_startRead (s.setWrr j (some { w with phase := .handled })) f g w.target t
  unfold doHandle
  by_cases hs : w.shallRead = true
  · rw [if_pos hs, if_pos hs]; exact key w.taker
  · rw [if_neg hs, if_neg hs]; rfl

theorem ls_diskStep (s : St D) (f g : List Nat) (x : Disk) : diskStep (s.ls f g) x = (diskStep s x).map (·.ls f g) := by
  cases x with
  | write j =>
    show (match s.wsched j with
      | some (w : Wrr) => if w.phase = Phase.pending then some (doWrite (s.ls f g) j w) else some (s.ls f g)
      | none => some (s.ls f g)) = _
    simp only [diskStep]
    cases s.wsched j with
    | none => rfl
    | some w => simp only; split <;> rfl
  | flag j =>
    show (match s.wsched j with
      | some (w : Wrr) => if w.phase = Phase.moved then some ((s.ls f g).setWrr j (some { w with phase := .flagged })) else some (s.ls f g)
      | none => some (s.ls f g)) = _
    simp only [diskStep]
    cases s.wsched j with
    | none => rfl
    | some w => simp only; split <;> rfl
  | handle j =>
    show (match s.wsched j with
      | some (w : Wrr) => if w.phase = Phase.flagged then doHandle (s.ls f g) j w else some (s.ls f g)
      | none => some (s.ls f g)) = _
    simp only [diskStep]
    cases s.wsched j with
    | none => rfl
    | some w => simp only; split
                · exact ls_doHandle s f g j w
                · rfl
  | read r => exact congrArg some (ls_doRead s f g r)

theorem ls_diskSteps (f g : List Nat) (l : List Disk) : ∀ s : St D, diskSteps (s.ls f g) l = (diskSteps s l).map (·.ls f g) := by
  induction l with
  | nil => intro s; rfl
  | cons x l ih =>
    intro s
    simp only [diskSteps, ls_diskStep]
    cases diskStep s x with
    | none => rfl
    | some s1 => exact ih s1

theorem ls_sync (s : St D) (f g : List Nat) : sync (s.ls f g) = (sync s).map (·.ls f g) :=
  ls_diskSteps f g (s.orc.headD []) { s with orc := s.orc.tail }

theorem ls_waitWrite (s : St D) (f g : List Nat) (j : Nat) : waitWrite (s.ls f g) j = (waitWrite s j).map (·.ls f g) := by
  have e : waitWrite (s.ls f g) j = match s.wsched j with
    | none => some (s.ls f g)
    | some _ => (sync (s.ls f g)).bind fun s1 => (diskSteps s1 [.write j, .flag j, .handle j]).map fun s2 => s2.setWrr j none := rfl
  rw [e]
  unfold waitWrite
  cases s.wsched j with
  | none => rfl
  | some w =>
    simp only [ls_sync]
    cases sync s with
    | none => rfl
    | some s1 =>
      simp only [Option.map_some, Option.bind_some, ls_diskSteps]
      cases diskSteps s1 [.write j, .flag j, .handle j] with
      | none => rfl
      | some s2 => rfl

theorem ls_waitGiver (s : St D) (f g : List Nat) (c : Nat) : waitGiver (s.ls f g) c = (waitGiver s c).map (·.ls f g) := by
  have e : waitGiver (s.ls f g) c = match s.sched c with
    | none => none
    | some m =>
      match m.giver with
      | none => some (s.ls f g)
      | some j => (waitWrite (s.ls f g) j).bind fun s1 => (s1.sched c).map fun m1 => s1.setMeta c (some { m1 with giver := none }) := rfl
  rw [e]
  unfold waitGiver
  cases s.sched c with
  | none => rfl
  | some m =>
    cases hg : m.giver with
    | none => simp only [hg]; rfl
    | some j =>
      simp only [hg, ls_waitWrite]
      cases waitWrite s j with
      | none => rfl
      | some s1 =>
        simp only [Option.map_some, Option.bind_some]
        show (s1.sched c).map _ = _
        cases s1.sched c with
        | none => rfl
        | some m1 => rfl

theorem ls_waitRead (s : St D) (f g : List Nat) (c : Nat) : waitRead (s.ls f g) c = (waitRead s c).map (·.ls f g) := by
  unfold waitRead
  rw [ls_waitGiver]
  cases waitGiver s c with
  | none => rfl
  | some s1 =>
    simp only [Option.map_some, Option.bind_some]
    show (match s1.sched c with
      | none => none
      | some (m : Meta) =>
        match m.readReq with
        | none => some (s1.ls f g)
        | some r => (sync (s1.ls f g)).bind fun (s2 : St D) => ((doRead s2 r).sched c).map fun (m2 : Meta) => (doRead s2 r).setMeta c (some { m2 with readReq := none })) = _
    cases s1.sched c with
    | none => rfl
    | some m =>
      cases hr : m.readReq with
      | none => simp only [hr]; rfl
      | some r =>
        simp only [hr, ls_sync]
        cases sync s1 with
        | none => rfl
        | some s2 =>
          simp only [Option.map_some, Option.bind_some, ls_doRead]
          show ((doRead s2 r).sched c).map _ = _
          cases (doRead s2 r).sched c with
          | none => rfl
          | some m2 => rfl

/-! ### The entry of a block is erased -/

theorem opsIn_filter (S : List Elem) (c i : Nat) (h : i ≠ c) : opsIn (S.filter fun x => x.id != c) i = opsIn S i := by
  unfold opsIn
  rw [List.filter_filter]
  congr 1
  apply List.filter_congr
  intro x _
  by_cases e : x.id = i
  · simp [e, h]
  · simp [e]

theorem opsIn_filter_self (S : List Elem) (c : Nat) : opsIn (S.filter fun x => x.id != c) c = [] := by
  unfold opsIn
  rw [List.filter_filter, List.filter_eq_nil_iff.2]
  · rfl
  · intro x _; by_cases e : x.id = c <;> simp [e]

theorem Before.filter {S : List Elem} {d g c : Nat} (h : Before S d g) (hd : d ≠ c) : Before (S.filter fun x => x.id != c) d g := by
  obtain ⟨U, x, V, rfl, h2, h3, h4⟩ := h
  refine ⟨U.filter fun x => x.id != c, x, V.filter fun x => x.id != c, ?_, h2, h3, fun y hy => h4 y (List.mem_filter.1 hy).1⟩
  have : (x.id != c) = true := by simp [h2, hd]
  rw [List.filter_append, List.filter_cons, this]; rfl

/-- Giving up the schedule leaves room for write requests nobody waits for. -/
theorem Inv.giveUp {dflt : D} {a : Abs D} {S : List Elem} {v : Swap.St D} {s : St D} (h : Inv dflt a { S := S } v s) : Inv dflt a { S := S, stop := true } v s := by
  have hh : ∀ g w, Holder { S := S } s g w → Holder { S := S, stop := true } s g w := fun g w hw => hw
  have b := h.base
  have p := h.plan
  have u := h.view
  exact ⟨h.sw, ⟨b.blocks, b.n, b.held, b.next, b.remaining, b.max, b.vfree, b.freeNd, b.rsvFree, b.rsvInj, b.vev, b.disj⟩, ⟨p.ops, p.opsNe, p.ids, p.rsvAcq, p.acqRsv, p.pre, p.evF, p.evS⟩, ⟨h.io.rrqOk, h.io.rrqInj, h.io.rrqW, h.io.rdOk, h.io.rdNd, h.io.gvrOk, h.io.gvrW, fun g w hw => by
    obtain ⟨a1, a2, a3⟩ := h.io.wOk g w hw
    exact ⟨a1, a2, a3.imp (fun z => ⟨z.1, hh g w z.2⟩) fun st => ⟨st.1, st.2.1, st.2.2.1, st.2.2.2.1, .inl rfl⟩⟩, h.io.dueOk⟩, ⟨u.intact, u.vdN, u.vmR, u.vmN⟩⟩

theorem forget_ok {dflt : D} {a : Abs D} {S : List Elem} {v : Swap.St D} {s t : St D} {c : Nat} (h : Inv dflt a { S := S, stop := true } v s)
    (hg : gvr s c = none) (hr : rrq s c = none) (hb : t.b = { s.b with free := t.b.free }) (hf : ∀ p, p ∈ t.b.free ↔ p ∈ s.b.free ∨ rsv s c = some p) (hnd : t.b.free.Nodup)
    (hsc : t.sched = put s.sched c none) (hw : t.wsched = s.wsched) (hrd : t.reads = s.reads) (hrq : t.reqs = s.reqs) (hnx : t.next = s.next)
    (hfe : ∀ i, i ∈ t.freeEv ↔ i ∈ s.freeEv ∨ (i = c ∧ i ∈ s.schedEv)) (hse : ∀ i, i ∈ t.schedEv ↔ i ∈ s.schedEv ∧ i ≠ c) :
    Inv dflt a { S := S.filter fun x => x.id != c, stop := true } v t := by
  have tbl : t.b.blocks = s.b.blocks := by rw [hb]
  have tsc : ∀ i, t.sched i = if i = c then none else s.sched i := fun i => by rw [hsc]; rfl
  have tg : ∀ i, gvr t i = gvr s i := by
    intro i; unfold gvr; rw [tsc]
    by_cases e : i = c
    · subst e; rw [if_pos rfl]; exact hg.symm
    · rw [if_neg e]
  have tr : ∀ i, rrq t i = rrq s i := by
    intro i; unfold rrq; rw [tsc]
    by_cases e : i = c
    · subst e; rw [if_pos rfl]; exact hr.symm
    · rw [if_neg e]
  have tv : ∀ i, rsv t i = if i = c then none else rsv s i := by
    intro i; unfold rsv; rw [tsc]
    by_cases e : i = c
    · rw [if_pos e, if_pos e]; rfl
    · rw [if_neg e, if_neg e]
  have to : ∀ i, opsOf t i = if i = c then [] else opsOf s i := by
    intro i; unfold opsOf; rw [tsc]
    by_cases e : i = c
    · rw [if_pos e, if_pos e]; rfl
    · rw [if_neg e, if_neg e]
  have hacq : ∀ i, HasAcq (S.filter fun x => x.id != c) i ↔ i ≠ c ∧ HasAcq S i := by
    intro i; unfold HasAcq
    by_cases e : i = c
    · subst e; rw [opsIn_filter_self]; simp
    · rw [opsIn_filter _ _ _ e]; simp [e]
  have hfst : ∀ i, First (S.filter fun x => x.id != c) i ↔ i ≠ c ∧ First S i := by
    intro i; unfold First
    by_cases e : i = c
    · subst e; rw [opsIn_filter_self]; simp
    · rw [opsIn_filter _ _ _ e]; simp [e]
  have hsub : ∀ i o, o ∈ opsIn (S.filter fun x => x.id != c) i → o ∈ opsIn S i := by
    intro i o ho
    by_cases e : i = c
    · subst e; rw [opsIn_filter_self] at ho; cases ho
    · rw [opsIn_filter _ _ _ e] at ho; exact ho
  have hbuf : ∀ m g, gvr s m = some g → bufOf t m = bufOf s m := by
    intro m g hm
    have : m ≠ c := by rintro rfl; rw [hg] at hm; cases hm
    unfold bufOf; rw [tbl, tv, if_neg this]
  refine ⟨h.sw, ⟨by rw [tbl]; exact h.base.blocks, by rw [hb]; exact h.base.n, by rw [hb]; exact h.base.held, by rw [hb]; exact h.base.next, by rw [hb]; exact h.base.remaining, by rw [hb]; exact h.base.max,
      fun p => ?_, hnd, fun i p hp => ?_, fun i j p h1 h2 => ?_, fun i => ?_, fun i h1 h2 => ?_⟩,
    ⟨fun i => ?_, fun i m hm => ?_, fun x hx => ?_, fun i p hp => ?_, fun i h1 h2 _ => ?_, fun i h1 h2 _ => ?_, fun i h1 => ?_, fun i h1 => ?_⟩,
    ⟨fun i r hi => ?_, by simp only [tr]; exact h.io.rrqInj, by simp only [tr, tg, hw]; exact h.io.rrqW, by simp only [tr, tbl, hrd]; exact h.io.rdOk, by rw [hrd]; exact h.io.rdNd, fun i g hi => ?_,
      by simp only [tg, hw]; exact h.io.gvrW, fun g w hgw => ?_, fun i hi => False.elim hi⟩,
    ⟨?_, ?_, ?_, ?_⟩⟩
  · rw [h.base.vfree p, hf p]
    constructor
    · rintro (h1 | ⟨i, h1⟩)
      · exact .inl (.inl h1)
      · by_cases e : i = c
        · subst e; exact .inl (.inr h1)
        · exact .inr ⟨i, by rw [tv, if_neg e]; exact h1⟩
    · rintro ((h1 | h1) | ⟨i, h1⟩)
      · exact .inl h1
      · exact .inr ⟨c, h1⟩
      · rw [tv] at h1
        split at h1
        · cases h1
        · exact .inr ⟨i, h1⟩
  · rw [tv] at hp
    split at hp
    · cases hp
    · rename_i e
      rw [hf]
      rintro (h1 | h1)
      · exact h.base.rsvFree i p hp h1
      · exact e (h.base.rsvInj i c p hp h1)
  · rw [tv] at h1 h2
    split at h1
    · cases h1
    · split at h2
      · cases h2
      · exact h.base.rsvInj i j p h1 h2
  · rw [h.base.vev i, hfe, hse]
    constructor
    · rintro (h1 | h1 | h1)
      · exact .inl (.inl h1)
      · by_cases e : i = c
        · exact .inl (.inr ⟨e, h1⟩)
        · exact .inr (.inl ⟨h1, e⟩)
      · cases h1
    · rintro ((h1 | h1) | h1 | h1)
      · exact .inl h1
      · exact .inr (.inl h1.2)
      · exact .inr (.inl h1.1)
      · cases h1
  · rcases (hfe i).1 h1 with h1 | h1
    · exact h.base.disj i h1 ((hse i).1 h2).1
    · exact ((hse i).1 h2).2 h1.1
  · rw [to]
    show _ = curOps none i ++ opsIn (S.filter fun x => x.id != c) i
    by_cases e : i = c
    · subst e; rw [opsIn_filter_self, if_pos rfl]; rfl
    · rw [opsIn_filter _ _ _ e, if_neg e]; exact h.plan.ops i
  · rw [tsc] at hm
    split at hm
    · cases hm
    · exact h.plan.opsNe i m hm
  · rw [hb]; exact h.plan.ids x (List.mem_filter.1 hx).1
  · rw [tv] at hp
    split at hp
    · cases hp
    · rename_i e
      rw [tbl]; exact ⟨(h.plan.rsvAcq i p hp).1, (hacq i).2 ⟨e, (h.plan.rsvAcq i p hp).2⟩⟩
  · have h1 := (hacq i).1 h1
    rw [tbl] at h2
    rw [tv, if_neg h1.1]; exact h.plan.acqRsv i h1.2 h2 (by simp)
  · have h1 := (hfst i).1 h1
    rw [tbl] at h2 ⊢
    exact h.plan.pre i h1.2 h2 (by simp)
  · rw [tbl]
    rcases (hfe i).1 h1 with h1 | h1
    · exact ⟨fun hc => (h.plan.evF i h1).1 ((hacq i).1 hc).2, fun hd hc => (h.plan.evF i h1).2 hd (hsub i _ hc)⟩
    · obtain ⟨rfl, _⟩ := h1
      exact ⟨fun hc => ((hacq i).1 hc).1 rfl, fun _ hc => by
        have hc : POp.deinit ∈ opsIn (S.filter fun x => x.id != i) i := hc
        rw [opsIn_filter_self] at hc; cases hc⟩
  · obtain ⟨h1, e⟩ := (hse i).1 h1
    rw [tbl]
    rcases h.plan.evS i h1 with h2 | ⟨h2, h3⟩ | h2
    · exact .inl ((hacq i).2 ⟨e, h2⟩)
    · refine .inr (.inl ⟨h2, ?_⟩)
      show POp.deinit ∈ opsIn (S.filter fun x => x.id != c) i
      rw [opsIn_filter _ _ _ e]; exact h3
    · refine .inr (.inr ?_)
      show shallClean (opsIn (S.filter fun x => x.id != c) i) = true
      rw [opsIn_filter _ _ _ e]; exact h2
  · rw [tr] at hi
    have hne : i ≠ c := by rintro rfl; rw [hr] at hi; cases hi
    obtain ⟨a1, a2, a3, a4, a5, a6⟩ := h.io.rrqOk i r hi
    rw [tbl, hw, hrq]
    exact ⟨a1, a2, a3, a4, (hfst i).2 ⟨hne, a5⟩, a6⟩
  · rw [tg] at hi
    have hne : i ≠ c := by rintro rfl; rw [hg] at hi; cases hi
    obtain ⟨a1, a2, a3, a5⟩ := h.io.gvrOk i g hi
    rw [tbl, tv, if_neg hne]
    exact ⟨a1.filter hne, a2, a3, a5.imp id fun z => ⟨z.1, z.2.1, (hfst i).2 ⟨hne, z.2.2⟩⟩⟩
  · rw [hw] at hgw
    obtain ⟨a1, a2, ⟨a3, a4⟩ | a4⟩ := h.io.wOk g w hgw
    case inr => rw [tbl]; exact ⟨a1, a2, .inr ⟨a4.1, a4.2.1, a4.2.2.1, fun hc => hc, .inl rfl⟩⟩
    rw [tbl]
    refine ⟨a1, a2, .inl ⟨a3, ?_⟩⟩
    rcases a4 with ⟨b1, b2, b3, b4⟩ | ⟨m, b1, b2, b3, b4, b5, b6, b7⟩
    · refine .inl ⟨by rw [tbl]; exact b1, b2, b3, ?_⟩
      rw [hnx, tg]
      exact b4.imp (fun z => ⟨z.1, z.2.1, fun o ho => z.2.2 o (hsub g o ho)⟩) id
    · exact .inr ⟨m, b1, b2, by rw [tg]; exact b3, by rw [hbuf m g b3]; exact b4, by rw [tbl]; exact b5, by rw [tbl, hw, tr]; exact b6, by rw [tbl]; exact b7⟩
  · rw [hw, hb]; simp only [tr]; exact h.view.intact
  · rw [hw, hb]; exact h.view.vdN
  · have : ∀ i, Rdg { S := S.filter fun x => x.id != c, stop := true } t i ↔ Rdg { S := S, stop := true } s i := fun i => by unfold Rdg; rw [tr, tg, hrd, hw]
    simp only [this, tbl]; exact h.view.vmR
  · have : ∀ i, Rdg { S := S.filter fun x => x.id != c, stop := true } t i ↔ Rdg { S := S, stop := true } s i := fun i => by unfold Rdg; rw [tr, tg, hrd, hw]
    simp only [this, tbl]
    rw [hb]; exact h.view.vmN

/-- A reserved block is given back. -/
def backTo (b : Swap.St D) : Option Nat → Swap.St D
  | none => b
  | some p => Swap.giveBack b p

theorem stopBlocks_ok {dflt : D} {a : Abs D} {v : Swap.St D} (f g : List Nat) (l : List Nat) : ∀ {S : List Elem} {s : St D}, Inv dflt a { S := S, stop := true } v s → (∀ i, s.sched i ≠ none → i ∈ l) →
    ∃ s' S', stopBlocks l (s.ls f g) = some (s'.ls f g) ∧ Inv dflt a { S := S', stop := true } v s' ∧ (∀ i, s'.sched i = none) ∧ s'.b.n = s.b.n ∧ s'.b.freeIds = s.b.freeIds ∧
      (∀ i, (i ∈ s'.freeEv ∨ i ∈ s'.schedEv) ↔ (i ∈ s.freeEv ∨ i ∈ s.schedEv)) ∧ s'.pred = s.pred ∧ s'.next = s.next := by
  induction l with
  | nil =>
    intro S s h hl
    refine ⟨s, S, rfl, h, fun i => ?_, rfl, rfl, fun i => Iff.rfl, rfl, rfl⟩
    cases hz : s.sched i with
    | none => rfl
    | some m => have := hl i (by rw [hz]; simp); cases this
  | cons c l ih =>
    intro S s h hl
    have e : stopBlocks (c :: l) (s.ls f g) = match s.sched c with
      | none => stopBlocks l (s.ls f g)
      | some _ => (waitRead (s.ls f g) c).bind fun s1 =>
          match s1.sched c with
          | none => none
          | some m => stopBlocks l ((match m.reserved with
            | none => s1
            | some p => { s1 with b := Swap.giveBack s1.b p }).setMeta c none) := rfl
    rw [e]
    cases hm : s.sched c with
    | none =>
      simp only
      refine ih h fun i hi => ?_
      rcases List.mem_cons.1 (hl i hi) with rfl | h1
      · exact absurd hm hi
      · exact h1
    | some m =>
      simp only
      obtain ⟨s1, w1, w2, w3, w4, w5, m1, w6⟩ := waitRead_ok h hm (fun hc => hc)
      rw [ls_waitRead, w1]
      simp only [Option.map_some, Option.bind_some]
      -- the state without the entry, with the lists as they are meant
      generalize ht : ({ s1 with b := backTo s1.b m1.reserved, sched := put s1.sched c none, freeEv := if c ∈ s1.schedEv then c :: s1.freeEv else s1.freeEv, schedEv := eraseId s1.schedEv c } : St D) = t
      have tl : (match (s1.ls f g).sched c with
          | none => none
          | some m => stopBlocks l ((match m.reserved with
            | none => s1.ls f g
            | some p => { s1.ls f g with b := Swap.giveBack (s1.ls f g).b p }).setMeta c none)) = stopBlocks l (t.ls f g) := by
        show (match s1.sched c with
          | none => none
          | some m => stopBlocks l ((match m.reserved with
            | none => s1.ls f g
            | some p => { s1.ls f g with b := Swap.giveBack (s1.ls f g).b p }).setMeta c none)) = stopBlocks l (t.ls f g)
        rw [w6, ← ht]
        simp only
        cases hz : m1.reserved with
        | none => rfl
        | some p => rfl
      rw [tl]
      have hrs : rsv s1 c = m1.reserved := by simp [rsv, w6]
      have hfree : t.b.free = (match m1.reserved with
          | none => s1.b.free
          | some p => p :: s1.b.free) := by
        rw [← ht]; simp only
        cases m1.reserved <;> rfl
      have hI : Inv dflt a { S := S.filter fun x => x.id != c, stop := true } v t := by
        refine forget_ok w2 w4 w5 ?_ ?_ ?_ (by rw [← ht]) (by rw [← ht]) (by rw [← ht]) (by rw [← ht]) (by rw [← ht]) ?_ ?_
        · rw [← ht]; simp only
          cases m1.reserved <;> rfl
        · intro p
          rw [hfree, hrs]
          cases m1.reserved with
          | none => simp
          | some q =>
            simp only [List.mem_cons, Option.some.injEq]
            exact ⟨fun h1 => h1.elim (fun h2 => .inr h2.symm) .inl, fun h1 => h1.elim .inr (fun h2 => .inl h2.symm)⟩
        · rw [hfree]
          cases hz : m1.reserved with
          | none => exact w2.base.freeNd
          | some q => exact List.nodup_cons.2 ⟨w2.base.rsvFree c q (by rw [hrs]; exact hz), w2.base.freeNd⟩
        · intro i; rw [← ht]
          show i ∈ (if c ∈ s1.schedEv then c :: s1.freeEv else s1.freeEv) ↔ _
          split
          · rename_i hc
            rw [List.mem_cons]
            constructor
            · rintro (rfl | h1)
              · exact .inr ⟨rfl, hc⟩
              · exact .inl h1
            · rintro (h1 | h1)
              · exact .inr h1
              · exact .inl h1.1
          · rename_i hc
            constructor
            · exact .inl
            · rintro (h1 | ⟨rfl, h1⟩)
              · exact h1
              · exact absurd h1 hc
        · intro i; rw [← ht]; exact mem_eraseId
      have hdom : ∀ i, t.sched i ≠ none → i ∈ l := by
        intro i hi
        have hne : i ≠ c := by rintro rfl; rw [← ht] at hi; simp [put] at hi
        have h1 : s1.sched i ≠ none := by rw [← ht] at hi; simpa [put, hne] using hi
        have h2 : s.sched i ≠ none := by
          intro hc
          have := w3.opsOf i
          obtain ⟨m', hm'⟩ := Option.ne_none_iff_exists'.1 h1
          rw [opsOf_of hm'] at this
          have h3 := w2.plan.opsNe i m' hm'
          rw [this] at h3
          simp [opsOf, hc] at h3
        rcases List.mem_cons.1 (hl i h2) with h3 | h3
        · exact absurd h3 hne
        · exact h3
      obtain ⟨s', S', k1, k2, k3, k4, k5, k6, k7, k8⟩ := ih hI hdom
      refine ⟨s', S', k1, k2, k3, ?_, ?_, fun i => ?_, ?_, ?_⟩
      · rw [k4, ← ht]; simp only
        have : s1.b.n = s.b.n := by rw [w3.b]
        rw [← this]
        cases m1.reserved <;> rfl
      · rw [k5, ← ht]; simp only
        have : s1.b.freeIds = s.b.freeIds := by rw [w3.b]
        rw [← this]
        cases m1.reserved <;> rfl
      · rw [k6, ← ht, ← w3.freeEv, ← w3.schedEv]
        show (i ∈ (if c ∈ s1.schedEv then c :: s1.freeEv else s1.freeEv) ∨ i ∈ eraseId s1.schedEv c) ↔ _
        rw [mem_eraseId]
        by_cases hc : c ∈ s1.schedEv
        · rw [if_pos hc, List.mem_cons]
          constructor
          · rintro ((rfl | h1) | h1)
            · exact .inr hc
            · exact .inl h1
            · exact .inr h1.1
          · rintro (h1 | h1)
            · exact .inl (.inr h1)
            · by_cases e : i = c
              · exact .inl (.inl e)
              · exact .inr ⟨h1, e⟩
        · rw [if_neg hc]
          constructor
          · rintro (h1 | h1)
            · exact .inl h1
            · exact .inr h1.1
          · rintro (h1 | h1)
            · exact .inl h1
            · exact .inr ⟨h1, by rintro rfl; exact hc h1⟩
      · rw [k7, ← ht]; exact w3.pred
      · rw [k8, ← ht]; exact w3.next

theorem stopWrites_ok {dflt : D} {a : Abs D} {v : Swap.St D} {S : List Elem} (l : List Nat) : ∀ {s : St D}, Inv dflt a { S := S, stop := true } v s → (∀ i, s.sched i = none) → (∀ i, s.wsched i ≠ none → i ∈ l) →
    ∃ s', stopWrites l s = some s' ∧ Inv dflt a { S := S, stop := true } v s' ∧ (∀ i, s'.sched i = none) ∧ (∀ i, s'.wsched i = none) ∧ FrW s s' := by
  induction l with
  | nil =>
    intro s h hs hw
    refine ⟨s, rfl, h, hs, fun i => ?_, FrW.refl s⟩
    cases hz : s.wsched i with
    | none => rfl
    | some m => have := hw i (by rw [hz]; simp); cases this
  | cons g l ih =>
    intro s h hs hw
    obtain ⟨s1, w1, w2, w3, w4, w5, _⟩ := waitWrite_ok h g
    have hs1 : ∀ i, s1.sched i = none := by
      intro i
      have := w3.sched i
      rw [hs i] at this
      cases hz : s1.sched i with
      | none => rfl
      | some m => rw [hz] at this; cases this
    obtain ⟨s', k1, k2, k3, k4, k5⟩ := ih w2 hs1 (fun i hi => by
      by_cases e : i = g
      · subst e; exact absurd w4 hi
      · have h2 : s.wsched i ≠ none := by
          intro hc
          have := w5 i e
          rw [hc] at this
          cases hz : s1.wsched i with
          | none => exact hi hz
          | some w => rw [hz] at this; cases this
        rcases List.mem_cons.1 (hw i h2) with h3 | h3
        · exact absurd h3 e
        · exact h3)
    exact ⟨s', by rw [stopWrites, w1]; exact k1, k2, k3, k4, w3.frW.trans k5⟩

/-- Nothing is scheduled, nothing is transferred. -/
structure Idle (dflt : D) (a : Abs D) (s : St D) : Prop where
  sw : Swap.Inv dflt { s.b with mode := .lru, evict := (inOrder s.b.n s.freeEv).map fun i => (0, i) } a
  sched : ∀ i, s.sched i = none
  wsched : ∀ i, s.wsched i = none
  reads : s.reads = []
  schedEv : s.schedEv = []
  lt : ∀ i ∈ s.freeEv, i < s.b.n

theorem mem_inOrder {n i : Nat} {l : List Nat} : i ∈ inOrder n l ↔ i < n ∧ i ∈ l := by simp [inOrder]

theorem inOrder_nodup (n : Nat) (l : List Nat) : (inOrder n l).Nodup := List.Pairwise.filter _ List.nodup_range

theorem map_zero (l : List Nat) : (l.map fun i => (0, i)).map (·.2) = l := by
  rw [List.map_map]; exact (List.map_congr_left fun _ _ => rfl).trans (List.map_id l)

theorem stop_ok {dflt : D} {a : Abs D} {s : St D} {S : List Elem} {v : Swap.St D} (h : Inv dflt a { S := S } v s) :
    ∃ s', stop s = some s' ∧ Idle dflt a s' ∧ s'.b.n = s.b.n := by
  unfold stop
  have hd : ∀ i, s.sched i ≠ none → i ∈ List.range s.b.n := by
    intro i hi
    obtain ⟨m, hm⟩ := Option.ne_none_iff_exists'.1 hi
    have h1 := h.plan.opsNe i m hm
    have h2 := h.plan.ops i
    rw [opsOf_of hm] at h2
    cases hz : m.ops with
    | nil => exact absurd hz h1
    | cons o l =>
      rw [hz] at h2
      have : o ∈ opsIn S i := by
        have : o ∈ curOps none i ++ opsIn S i := by rw [← show o :: l = _ from h2]; simp
        simpa [curOps] using this
      obtain ⟨x, k1, k2, _⟩ := mem_opsIn.1 this
      rw [List.mem_range, ← k2]; exact h.plan.ids x k1
  obtain ⟨s1, S1, h1, h2, h3, h4, h5, h6, h7, h8⟩ := stopBlocks_ok (s.freeEv ++ s.schedEv.filter (fun i => decide (i ∉ s.freeEv))) [] (List.range s.b.n) h.giveUp hd
  have h1' : stopBlocks (List.range s.b.n) { s with freeEv := s.freeEv ++ s.schedEv.filter (fun i => decide (i ∉ s.freeEv)), schedEv := [] } = some (s1.ls (s.freeEv ++ s.schedEv.filter (fun i => decide (i ∉ s.freeEv))) []) := h1
  rw [h1', Option.bind_some]
  have hops : ∀ i, opsIn S1 i = [] := by
    intro i
    have := h2.plan.ops i
    simp only [opsOf, h3 i, curOps, List.nil_append] at this
    exact this.symm
  have hI : Inv dflt a { S := S1, stop := true } v (s1.ls (s.freeEv ++ s.schedEv.filter (fun i => decide (i ∉ s.freeEv))) []) := by
    refine h2.lists _ [] none (fun i => ?_) (by simp) (fun i _ => ⟨fun ⟨o, ho, _⟩ => ?_, fun _ hc => ?_⟩) (fun i hi => by cases hi)
    · have := h6 i
      simp only [List.mem_append, List.mem_filter, decide_eq_true_eq, List.not_mem_nil, false_or, reduceCtorEq, or_false]
      rw [this]
      by_cases e : i ∈ s.freeEv <;> simp [e]
    · have ho : o ∈ opsIn S1 i := ho
      rw [hops] at ho; cases ho
    · have hc : POp.deinit ∈ opsIn S1 i := hc
      rw [hops] at hc; cases hc
  obtain ⟨s', k1, k2, k3, k4, k5⟩ := stopWrites_ok (List.range s1.b.n) hI h3 (fun i hi => by
    obtain ⟨w, hw⟩ := Option.ne_none_iff_exists'.1 hi
    have := (hI.io.wOk i w hw).1
    rw [← hI.base.blocks] at this
    have := (hI.sw.core.extLive i _ this).1
    rw [List.mem_range]
    rw [hI.base.n] at this; exact this)
  refine ⟨s', k1, ?_, by rw [k5.b]; exact h4⟩
  have hrq : ∀ i, rrq s' i = none := fun i => by simp [rrq, k3 i]
  have hgv : ∀ i, gvr s' i = none := fun i => by simp [gvr, k3 i]
  have hrv : ∀ i, rsv s' i = none := fun i => by simp [rsv, k3 i]
  have hse : s'.schedEv = [] := k5.schedEv
  refine ⟨?_, k3, k4, ?_, hse, fun i hi => (k2.ev_facts (.inl hi)).2.2.2⟩
  · refine k2.sw.same k2.base.blocks.symm k2.base.n.symm k2.base.held.symm k2.base.next.symm k2.base.remaining.symm k2.base.max.symm (fun p => ?_) k2.base.freeNd (fun i => ?_) ?_ (fun i p _ => ?_) (fun e => ?_)
    · rw [k2.base.vfree p]
      exact ⟨.inl, fun h => h.elim id fun ⟨c, hc⟩ => by rw [hrv c] at hc; cases hc⟩
    · show i ∈ ((inOrder s'.b.n s'.freeEv).map fun i => (0, i)).map (·.2) ↔ _
      rw [map_zero, mem_inOrder, k2.base.vev i, hse]
      simp only [List.not_mem_nil, reduceCtorEq, or_false]
      exact ⟨fun h => h.2, fun h => ⟨(k2.ev_facts (.inl h)).2.2.2, h⟩⟩
    · show (((inOrder s'.b.n s'.freeEv).map fun i => (0, i)).map (·.2)).Nodup
      rw [map_zero]; exact inOrder_nodup _ _
    · refine (k2.view.vmN p fun i _ hr => ?_).symm
      rcases hr with ⟨r, h1, _⟩ | ⟨_, h1 | ⟨g, w, h1, _⟩⟩
      · rw [hrq] at h1; cases h1
      · exact h1
      · rw [hgv] at h1; cases h1
    · exact (k2.view.vdN e fun g w hw => by rw [k4] at hw; cases hw).symm
  · cases hz : s'.reads with
    | nil => rfl
    | cons x l =>
      obtain ⟨c, h1, _⟩ := k2.io.rdOk x (by rw [hz]; simp)
      rw [hrq] at h1; cases h1

end Foxxll.Ahead
