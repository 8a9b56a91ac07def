import Verif.Spec.SwapDestroy
import Verif.Proofs.SwapStoreEnd
import Verif.Proofs.SwapStoreRun
import Verif.Proofs.SchedEnd
/-
The destructor of a block scheduler does the steps of `deinitialize` of one block after the other.
-/
namespace Foxxll.SwapStore
open Foxxll

variable {k : Queue.Kind} {qid : Nat → Nat} {cfgs : List (Nat × Bool)} {memory : Nat} {g : Cfg} {s : Sys} {h : Store.Hist} {a : Swap.Abs Data}

/-! ### The commands -/

def del (c : Ctl) (id : Nat) : Cmd := .delete ((c.blocks id).ext.getD 0)

/-- Blocks with an external block. -/
def withExt (c : Ctl) (l : List Nat) : List Nat := l.filter fun id => (c.blocks id).ext.isSome

theorem wipe_some {c : Ctl} {id : Nat} (h : (c.blocks id).refs = 0) :
    wipe c id = some ((c.blocks id).int, c.set id {}, (withExt c [id]).map (del c)) := by
  have : (c.blocks id).isAcquired = false := by simp [Swap.SB.isAcquired, h]
  simp only [wipe, Swap.wipe, this, Bool.false_eq_true, if_false, Option.map_some]
  congr 3
  cases he : (c.blocks id).ext with
  | none => simp [withExt, he]
  | some e => simp [withExt, he, del]

theorem withExt_congr {c c' : Ctl} {l : List Nat} (h : ∀ i ∈ l, c'.blocks i = c.blocks i) : (withExt c' l).map (del c') = (withExt c l).map (del c) := by
  induction l with
  | nil => rfl
  | cons i l ih =>
    have ih := ih fun j hj => h j (List.mem_cons_of_mem _ hj)
    have h0 := h i (List.mem_cons_self ..)
    unfold withExt at ih ⊢
    rw [List.filter_cons, List.filter_cons, h0]
    split
    · rw [List.map_cons, List.map_cons, ih]; simp only [del, h0]
    · exact ih

theorem withExt_cons {c : Ctl} {i : Nat} {l : List Nat} : withExt c (i :: l) = withExt c [i] ++ withExt c l := by
  unfold withExt
  rw [← List.filter_append]; rfl

theorem endAlgo_cmds (l : List Nat) : ∀ (c : Ctl), l.Nodup → (∀ i ∈ l, (c.blocks i).refs = 0) →
    ∃ c', endAlgo l c = some (c', (withExt c l).map (del c)) ∧ c'.n = c.n ∧ c'.freeIds = c.freeIds ∧ ∀ j, c'.blocks j = if j ∈ l then {} else c.blocks j := by
  induction l with
  | nil => intro c _ _; exact ⟨_, rfl, rfl, rfl, fun j => by simp⟩
  | cons id l ih =>
    intro c hnd hl
    obtain ⟨n1, n2⟩ := List.nodup_cons.1 hnd
    have hb : ∀ i ∈ l, (c.set id {}).blocks i = c.blocks i := fun i hi => Swap.set_other c _ (fun hc => n1 (hc ▸ hi))
    have key : ∀ c1 : Ctl, c1.blocks = (c.set id {}).blocks → c1.n = c.n → c1.freeIds = c.freeIds →
        ∃ c', endAlgo l c1 = some (c', (withExt c l).map (del c)) ∧ c'.n = c.n ∧ c'.freeIds = c.freeIds ∧ ∀ j, c'.blocks j = if j ∈ id :: l then {} else c.blocks j := by
      intro c1 e1 e2 e3
      have hb1 : ∀ i ∈ l, c1.blocks i = c.blocks i := fun i hi => by rw [e1]; exact hb i hi
      obtain ⟨c', h1, h2, h3, h4⟩ := ih c1 n2 (fun i hi => by rw [hb1 i hi]; exact hl i (List.mem_cons_of_mem _ hi))
      refine ⟨c', by rw [h1, withExt_congr hb1], h2.trans e2, h3.trans e3, fun j => ?_⟩
      rw [h4 j, e1]
      by_cases e : j = id
      · subst e; simp
      · rw [Swap.set_other c _ e]; simp [e]
    simp only [endAlgo, wipe_some (hl id (List.mem_cons_self ..)), Option.bind_some]
    rw [withExt_cons (l := l), List.map_append]
    cases hi : (c.blocks id).int with
    | none =>
      obtain ⟨c', h1, h2⟩ := key (c.set id {}) rfl rfl rfl
      exact ⟨c', by show Option.map _ (endAlgo l (c.set id {})) = _; rw [h1]; rfl, h2⟩
    | some p =>
      obtain ⟨c', h1, h2⟩ := key (Swap.giveBack (c.set id {}) p) rfl rfl rfl
      exact ⟨c', by show Option.map _ (endAlgo l (Swap.giveBack (c.set id {}) p)) = _; rw [h1]; rfl, h2⟩

/-- Blocks that are not acquired and have an external block. -/
def unheld (c : Ctl) (l : List Nat) : List Nat := l.filter fun id => decide ((c.blocks id).refs = 0) && (c.blocks id).ext.isSome

theorem unheld_congr {c c' : Ctl} {l : List Nat} (h : ∀ i ∈ l, c'.blocks i = c.blocks i) : (unheld c' l).map (del c') = (unheld c l).map (del c) := by
  induction l with
  | nil => rfl
  | cons i l ih =>
    have ih := ih fun j hj => h j (List.mem_cons_of_mem _ hj)
    have h0 := h i (List.mem_cons_self ..)
    unfold unheld at ih ⊢
    rw [List.filter_cons, List.filter_cons, h0]
    split
    · rw [List.map_cons, List.map_cons, ih]; simp only [del, h0]
    · exact ih

theorem endBlocks_cmds (l : List Nat) : ∀ (c : Ctl), l.Nodup → ∃ c', endBlocks l c = some (c', (unheld c l).map (del c)) := by
  induction l with
  | nil => intro c _; exact ⟨_, rfl⟩
  | cons id l ih =>
    intro c hnd
    obtain ⟨n1, n2⟩ := List.nodup_cons.1 hnd
    simp only [endBlocks]
    by_cases hr : (c.blocks id).refs = 0
    · have : (c.blocks id).isAcquired = false := by simp [Swap.SB.isAcquired, hr]
      simp only [this, Bool.false_eq_true, if_false, wipe_some hr, Option.bind_some]
      have hb : ∀ i ∈ l, (c.set id {}).blocks i = c.blocks i := fun i hi => Swap.set_other c _ (fun hc => n1 (hc ▸ hi))
      obtain ⟨c', h1⟩ := ih (c.set id {}) n2
      refine ⟨c', ?_⟩
      have e : unheld c (id :: l) = withExt c [id] ++ unheld c l := by
        unfold withExt unheld
        rw [List.filter_cons]
        cases hx : (c.blocks id).ext <;> simp [hr, hx]
      rw [h1, Option.map_some, unheld_congr hb, e, List.map_append]
    · have : (c.blocks id).isAcquired = true := by simp [Swap.SB.isAcquired]; omega
      simp only [this, if_true]
      obtain ⟨c', h1⟩ := ih c n2
      refine ⟨c', ?_⟩
      rw [h1]
      unfold unheld
      rw [List.filter_cons]
      simp [hr]

/-- The commands of the destructor. -/
theorem destroy_cmds {c : Ctl} (hc : Swap.Core c none) (he : Swap.Ev c) :
    ∃ (c' : Ctl) (ids : List Nat), destroy c = some (c', ids.map (del c)) ∧ ids.Nodup ∧ (∀ id ∈ ids, id < c.n ∧ (c.blocks id).refs = 0 ∧ (c.blocks id).ext ≠ none) ∧
      (c.freeIds.length ≠ c.n → ∀ id, id < c.n → (c.blocks id).refs = 0 → (c.blocks id).ext ≠ none → id ∈ ids) := by
  have hd := Swap.drain_perm c.mode _ c.evict (Nat.le_refl _)
  have hids : ((Swap.drain c.mode c.evict.length c.evict).map (·.2)).Perm (c.evict.map (·.2)) := hd.map _
  generalize hL : (Swap.drain c.mode c.evict.length c.evict).map (·.2) = L at hids
  have hnd : L.Nodup := hids.nodup_iff.2 he.nd
  have hmem : ∀ i ∈ L, i < c.n ∧ (c.blocks i).refs = 0 := by
    intro i hi
    have h1 := (he.mem i).1 (hids.mem_iff.1 hi)
    obtain ⟨p, hp⟩ := Option.ne_none_iff_exists'.1 h1.1
    exact ⟨(hc.att i p hp).1, h1.2⟩
  obtain ⟨c1, h1, h2, h3, h4⟩ := endAlgo_cmds L c hnd (fun i hi => (hmem i hi).2)
  have hsome : ∀ {o : Option Nat}, o.isSome = true → o ≠ none := by intro o h1 h2; rw [h2] at h1; cases h1
  have hsome' : ∀ {o : Option Nat}, o ≠ none → o.isSome = true := by intro o h1; cases o with | none => exact absurd rfl h1 | some _ => rfl
  simp only [destroy, hL, h1, Option.bind_some, h2, h3]
  by_cases hn : c.freeIds.length = c.n
  · rw [if_neg (by simpa using hn)]
    refine ⟨c1, withExt c L, by simp, hnd.sublist List.filter_sublist, ?_, fun h => absurd hn h⟩
    intro id hid
    obtain ⟨g1, g2⟩ := List.mem_filter.1 hid
    exact ⟨(hmem id g1).1, (hmem id g1).2, hsome g2⟩
  · rw [if_pos hn]
    obtain ⟨c2, h5⟩ := endBlocks_cmds (List.range c.n) c1 List.nodup_range
    rw [h5]
    have hb : ∀ i ∈ unheld c1 (List.range c.n), i ∉ L := by
      intro i hi hc
      obtain ⟨_, g2⟩ := List.mem_filter.1 hi
      rw [h4 i, if_pos hc] at g2
      simp at g2
    have hb' : (unheld c1 (List.range c.n)).map (del c1) = (unheld c1 (List.range c.n)).map (del c) := by
      refine List.map_congr_left ?_
      intro i hi
      simp only [del]
      rw [h4 i, if_neg (hb i hi)]
    refine ⟨c2, withExt c L ++ unheld c1 (List.range c.n), by simp [hb'], ?_, ?_, ?_⟩
    · refine List.nodup_append.2 ⟨hnd.sublist List.filter_sublist, List.nodup_range.sublist List.filter_sublist, ?_⟩
      intro i hi j hj hij
      subst hij
      exact hb i hj (List.mem_filter.1 hi).1
    · intro id hid
      rcases List.mem_append.1 hid with hid | hid
      · obtain ⟨g1, g2⟩ := List.mem_filter.1 hid
        exact ⟨(hmem id g1).1, (hmem id g1).2, hsome g2⟩
      · obtain ⟨g1, g2⟩ := List.mem_filter.1 hid
        rw [h4 id, if_neg (hb id hid)] at g2
        simp only [Bool.and_eq_true, decide_eq_true_eq] at g2
        exact ⟨List.mem_range.1 g1, g2.1, hsome g2.2⟩
    · intro _ id i1 i2 i3
      rw [List.mem_append]
      by_cases hi : id ∈ L
      · exact .inl (List.mem_filter.2 ⟨hi, hsome' i3⟩)
      · refine .inr (List.mem_filter.2 ⟨List.mem_range.2 i1, ?_⟩)
        rw [h4 id, if_neg hi]
        simp [i2, hsome' i3]

/-! ### Identifiers -/

structure IdOk (c : Ctl) (used : List Nat) : Prop where
  nd : (used ++ c.freeIds).Nodup
  all : ∀ i, i < c.n ↔ i ∈ used ∨ i ∈ c.freeIds
  blank : ∀ i, i ∉ used → c.blocks i = {}

theorem RunIds.run {used : List Nat} (hr : RunIds k qid cfgs memory g s h a used) : Run k qid cfgs memory g s h a := by
  induction hr with
  | start h1 h2 h3 => exact .start h1 h2 h3
  | next ev _ hf _ hs ih => exact .next ev ih hf hs

theorem held_pure {used : List Nat} {op : Call} {ans : Ans} {d : Store.St} {x : (Nat → Data) × (Nat → Data)} :
    Swap.Held used op.toOp (ans.res g d) = Swap.Held used op.toOp (ans.pure x) := by
  cases op <;> cases ans <;> rfl

theorem ids_inv (hraw : 0 < g.raw) (hd : g.dflt.length = g.raw) {used : List Nat} (hr : RunIds k qid cfgs memory g s h a used) :
    ∀ d, IdOk s.c (match s.cur with
      | none => used
      | some (op, ans) => Swap.Held used op.toOp (ans.res g d)) := by
  induction hr with
  | start => intro d; exact ⟨List.nodup_nil, fun i => by simp [Sys.init, Swap.init], fun i _ => rfl⟩
  | @next s s' h a used ev hr hf hu hs ih =>
    intro d
    cases ev with
    | call op =>
      simp only [Sys.step] at hs
      split at hs
      · cases hs
      · rename_i hcur
        split at hs
        · cases hs
        · rename_i ans c l hp
          injection hs with hs; subst hs
          obtain ⟨fu, x, R⟩ := run_inv hraw hd hr.run
          have hP := R.pure
          simp only [Pure, hcur] at hP
          obtain ⟨ht, hrun⟩ := hP
          have hinv := Swap.run_inv (env g.dflt) (env_fresh _) (env_fill _) hrun
          obtain ⟨r, p4, p5⟩ := plan_pure (dflt := g.dflt) (x := x) hp
          have hr' : r = ans.pure (effs g.dflt x l) := by cases ans <;> exact p5
          subst hr'
          have h0 := ih d
          rw [hcur] at h0
          have hi : Swap.IdInv (join s.c x) used := ⟨hinv.core, hinv.ev, h0.nd, h0.all, h0.blank⟩
          have := Swap.id_step (env_fresh _) op.toOp hi (fun id hid => hu op id rfl hid) (fun id e he => by
            have := hf.1
            rw [he] at this
            have h3 := this.2.2 e rfl
            exact (hinv.held e).1.1 h3) p4
          show IdOk c (Swap.Held used op.toOp (ans.res g d))
          rw [held_pure (x := effs g.dflt x l)]
          exact ⟨this.nd, this.all, this.blank⟩
    | cmd r f o =>
      obtain ⟨_, h1, h2⟩ := cmd_weight (fun r hrd => rd_todo hraw hd hr.run hrd) hs
      rw [h1, h2]
      exact ih d
    | ret =>
      simp only [Sys.step] at hs
      split at hs
      · split at hs
        · rename_i hcur
          injection hs with hs; subst hs
          obtain ⟨⟨op, ans⟩, hcur⟩ := Option.isSome_iff_exists.1 hcur
          have := ih s.d
          rw [hcur] at this
          simp only [idsAfter, hcur]
          exact this
        · cases hs
      · cases hs
    | adopt b v =>
      simp only [Sys.step] at hs
      split at hs
      · cases hs
      · rename_i hcur
        injection hs with hs; subst hs
        have := ih d
        rw [hcur] at this
        simp only [idsAfter, hcur]
        exact ⟨this.nd, this.all, this.blank⟩
    | drop e =>
      simp only [Sys.step] at hs
      split at hs
      · cases hs
      · rename_i hcur
        split at hs
        · injection hs with hs; subst hs
          have := ih d
          rw [hcur] at this
          simp only [idsAfter, hcur]
          exact this
        · cases hs
    | env op =>
      obtain ⟨d', h1, h2⟩ := via_ok hs
      subst h2
      exact ih d

/-! ### The destructor as calls of `deinitialize` -/

/-- The call `deinitialize` of block `id`, whose external block is `e`. -/
theorem deinit_call {id e : Nat} (hr : Run k qid cfgs memory g s h a) (hc : s.cur = none) (hn : id < s.c.n) (h0 : (s.c.blocks id).refs = 0)
    (ha : a.refs id = 0) (hx : (s.c.blocks id).ext = some e) :
    ∃ c', Run k qid cfgs memory g { s with c := c', todo := [.delete e], cur := some (.deinit id, .unit) } h a ∧ c'.n = s.c.n ∧ ∀ j, j ≠ id → c'.blocks j = s.c.blocks j := by
  have hacq : (s.c.blocks id).isAcquired = false := by simp [Swap.SB.isAcquired, h0]
  obtain ⟨c', h1, h2, h3⟩ : ∃ c', Swap.deinit s.c id = some c' ∧ c'.n = s.c.n ∧ ∀ j, j ≠ id → c'.blocks j = s.c.blocks j := by
    unfold Swap.deinit
    rw [if_neg (by omega)]
    simp only [hacq, Bool.false_eq_true, if_false]
    split
    · refine ⟨_, rfl, ?_, fun j hj => ?_⟩
      · split <;> rfl
      · simp only [Swap.giveBack, Swap.St.set, hj, if_false]
        split <;> rfl
    · refine ⟨_, rfl, ?_, fun j hj => ?_⟩
      · split <;> rfl
      · simp only [Swap.St.set, hj, if_false]
        split <;> rfl
  have hp : plan s.c (.deinit id) = some (.unit, c', [.delete e]) := by
    simp only [plan, deinit, h1, hx, Option.map_some]
  refine ⟨c', Run.next (.call (.deinit id)) hr ⟨ha, fun _ _ e => (by cases e), fun _ _ e => (by cases e)⟩ ?_, h2, h3⟩
  simp only [Sys.step, hc, hp]

/-- `deinitialize` from call to return. -/
theorem deinit_run {id e r o : Nat} {f : Nat → Nat} {d' : Store.St} (hr : Run k qid cfgs memory g s h a) (hc : s.cur = none) (ht : s.todo = []) (hn : id < s.c.n) (h0 : (s.c.blocks id).refs = 0)
    (ha : a.refs id = 0) (hx : (s.c.blocks id).ext = some e) (hfr : s.d.reqs r = none) (hf : f o < s.d.m.mgr.disks.length)
    (hs : Store.step k qid s.d (.mgr (.delete (s.bid e))) = some d') :
    ∃ c', Run k qid cfgs memory g { s with c := c', d := d', own := s.own.filter (· != e) } (h.next s.d (.mgr (.delete (s.bid e)))) { a with data := Swap.upd a.data id none } ∧
      c'.n = s.c.n ∧ ∀ j, j ≠ id → c'.blocks j = s.c.blocks j := by
  obtain ⟨c', r1, h2, h3⟩ := deinit_call hr hc hn h0 ha hx
  have r2 : Run k qid cfgs memory g { s with c := c', d := d', own := s.own.filter (· != e), todo := [], cur := some (.deinit id, .unit) } (h.next s.d (.mgr (.delete (s.bid e)))) a := by
    refine Run.next (.cmd r f o) r1 ⟨hfr, hf⟩ ?_
    simp only [Sys.step, Sys.exec, Sys.via, hs]
  have r3 := Run.next .ret r2 trivial (s' := { s with c := c', d := d', own := s.own.filter (· != e), todo := [], cur := none }) rfl
  refine ⟨c', ?_, h2, h3⟩
  rw [← ht, ← hc] at r3
  exact r3

/-- The destructor between two commands, and a state of the scheduler in which the blocks deleted so far are deinitialized. -/
structure Sim (k : Queue.Kind) (qid : Nat → Nat) (cfgs : List (Nat × Bool)) (memory : Nat) (g : Cfg) (s : Sys) (a : Swap.Abs Data) (ids0 : List Nat) (t : Sys) (h' : Store.Hist)
    (gone : List Mgr.Bid) (u : Sys) (b : Swap.Abs Data) (don ids : List Nat) : Prop where
  run : Run k qid cfgs memory g u h' b
  cur : u.cur = none
  todo : u.todo = []
  d : u.d = t.d
  own : u.own = t.own
  bid : u.bid = t.bid
  bid0 : t.bid = s.bid
  refs : b.refs = a.refs
  held : b.held = a.held
  n : u.c.n = s.c.n
  split : ids0 = don ++ ids
  same : ∀ id, id ∉ don → u.c.blocks id = s.c.blocks id
  cmds : t.todo = ids.map (del s.c)
  gone : gone = don.map fun id => s.bid ((s.c.blocks id).ext.getD 0)
  sub : ∀ e, e ∈ t.own ↔ e ∈ s.own ∧ ∀ id ∈ don, (s.c.blocks id).ext ≠ some e

theorem quiet (hraw : 0 < g.raw) (hd : g.dflt.length = g.raw) (hr : Run k qid cfgs memory g s h a) (hc : s.cur = none) : s.todo = [] ∧ s.out = [] ∧ s.rd = none ∧
    ∃ x, Swap.Run (env g.dflt) (join s.c x) a := by
  obtain ⟨fu, x, R⟩ := run_inv hraw hd hr
  have hP := R.pure
  simp only [Pure, hc] at hP
  obtain ⟨ht, hrun⟩ := hP
  have hz := R.zero
  rw [ht] at hz
  exact ⟨ht, List.length_eq_zero_iff.1 hz, R.mi.norun (fun p e l => by rw [ht]; intro e; cases e), x, hrun⟩

theorem ending_sim (hraw : 0 < g.raw) (hd : g.dflt.length = g.raw) (hr : Run k qid cfgs memory g s h a) (hc : s.cur = none) {t : Sys} {h' : Store.Hist} {gone : List Mgr.Bid}
    (he : Ending k qid memory g s h a t h' gone) : ∃ ids0, (∃ c', destroy s.c = some (c', ids0.map (del s.c))) ∧ ids0.Nodup ∧
      (∀ id ∈ ids0, id < s.c.n ∧ (s.c.blocks id).refs = 0 ∧ (s.c.blocks id).ext ≠ none) ∧
      (s.c.freeIds.length ≠ s.c.n → ∀ id, id < s.c.n → (s.c.blocks id).refs = 0 → (s.c.blocks id).ext ≠ none → id ∈ ids0) ∧
      ∃ u b don ids, Sim k qid cfgs memory g s a ids0 t h' gone u b don ids := by
  obtain ⟨q1, q2, q3, x, hrun⟩ := quiet hraw hd hr hc
  have hinv := Swap.run_inv (env g.dflt) (env_fresh _) (env_fill _) hrun
  have hev : Swap.Ev s.c := ⟨hinv.ev.1, hinv.ev.2, hinv.ev.3⟩
  obtain ⟨c', ids0, h1, h2, h3, h4⟩ := destroy_cmds (core_split hinv.core) hev
  have hrefs : ∀ id, a.refs id = (s.c.blocks id).refs := fun id => (hinv.ok id).refs
  refine ⟨ids0, ⟨c', h1⟩, h2, h3, h4, ?_⟩
  induction he with
  | @start t hs =>
    simp only [Sys.destroy, hc, h1] at hs
    injection hs with hs; subst hs
    exact ⟨s, a, [], ids0, hr, hc, q1, rfl, rfl, rfl, rfl, rfl, rfl, rfl, rfl, fun _ _ => rfl, rfl, rfl, fun e => by simp⟩
  | @next t t' h' gone ev _ hfin hf hs ih =>
    obtain ⟨u, b, don, ids, S⟩ := ih
    cases ev with
    | cmd r f o =>
      simp only [Sys.step] at hs
      split at hs
      · cases hs
      · rename_i c l ht
        have hl := S.cmds
        rw [ht] at hl
        cases ids with
        | nil => cases hl
        | cons id ids =>
          rw [List.map_cons] at hl
          injection hl with hl1 hl2
          have hnd := h2
          rw [S.split] at hnd
          have hid : id ∉ don := fun hm => (List.nodup_append.1 hnd).2.2 id hm id (List.mem_cons_self ..) rfl
          obtain ⟨i1, i2, i3⟩ := h3 id (by rw [S.split]; simp)
          obtain ⟨e, hx⟩ := Option.ne_none_iff_exists'.1 i3
          have hce : c = .delete e := by rw [hl1]; simp [del, hx]
          subst hce
          simp only [Sys.exec] at hs
          obtain ⟨d', hd', hs'⟩ := via_ok hs
          subst hs'
          have hd'' : Store.step k qid u.d (.mgr (.delete (u.bid e))) = some d' := by rw [S.d, S.bid]; exact hd'
          have hb := S.same id hid
          obtain ⟨c2, g1, g2, g3⟩ := deinit_run (e := e) (r := r) (f := f) (o := o) S.run S.cur S.todo (by rw [S.n]; exact i1) (by rw [hb]; exact i2)
            (by rw [S.refs, hrefs]; exact i2) (by rw [hb]; exact hx) (by rw [S.d]; exact hf.1) (by rw [S.d]; exact hf.2) hd''
          have hst : t.store g (.cmd r f o) = some (.mgr (.delete (t.bid e))) := by simp only [Sys.store, ht]
          refine ⟨{ u with c := c2, d := d', own := u.own.filter (· != e) }, { b with data := Swap.upd b.data id none }, don ++ [id], ids, ?_, S.cur, S.todo, rfl, ?_, S.bid, S.bid0, S.refs, S.held, g2.trans S.n, by rw [S.split]; simp, ?_, hl2, ?_, ?_⟩
          · rw [hst]
            show Run _ _ _ _ _ _ (h'.next t.d (.mgr (.delete (t.bid e)))) _
            rw [← S.d, ← S.bid]
            exact g1
          · show u.own.filter _ = t.own.filter _
            rw [S.own]
          · intro j hj
            simp only [List.mem_append, List.mem_singleton, not_or] at hj
            exact (g3 j hj.2).trans (S.same j hj.1)
          · simp only [returned, hst, deleted, List.map_append, List.map_cons, List.map_nil, hx, Option.getD_some, ← S.gone, S.bid0]
          · intro e'
            show e' ∈ t.own.filter _ ↔ _
            rw [List.mem_filter, S.sub]
            constructor
            · rintro ⟨⟨k1, k2⟩, k3⟩
              refine ⟨k1, fun j hj => ?_⟩
              rcases List.mem_append.1 hj with hj | hj
              · exact k2 j hj
              · rw [List.mem_singleton.1 hj, hx]
                intro hc; injection hc with hc; subst hc; simp at k3
            · rintro ⟨k1, k2⟩
              refine ⟨⟨k1, fun j hj => k2 j (List.mem_append.2 (.inl hj))⟩, ?_⟩
              have := k2 id (List.mem_append.2 (.inr (List.mem_singleton.2 rfl)))
              rw [hx] at this
              simp only [bne_iff_ne]
              intro hc; exact this (by rw [hc])
    | env op =>
      obtain ⟨d', hd', hs'⟩ := via_ok hs
      subst hs'
      obtain ⟨f1, f2, f3⟩ := hf
      refine ⟨{ u with d := d' }, b, don, ids, ?_, S.cur, S.todo, rfl, S.own, S.bid, S.bid0, S.refs, S.held, S.n, S.split, S.same, S.cmds, ?_, S.sub⟩
      · have := Run.next (s' := { u with d := d' }) (.env op) S.run ⟨by rw [S.d]; exact f1, f2, by rw [S.d, S.own, S.bid]; exact f3⟩
          (by simp only [Sys.step, Sys.via, S.d, hd'])
        show Run _ _ _ _ _ _ (h'.next t.d op) b
        rw [← S.d]
        exact this
      · rw [S.gone]; simp [returned]
    | call _ => cases hfin
    | ret => cases hfin
    | adopt _ _ => cases hfin
    | drop _ => cases hfin

/-- The identifiers of the client, or all of them are free and no block has data. -/
theorem idOk_free {c : Ctl} {used : List Nat} (h : IdOk c used) (hn : c.freeIds.length = c.n) (i : Nat) : c.blocks i = {} := by
  refine h.blank i ?_
  have h1 : (used ++ c.freeIds).Perm (List.range c.n) :=
    (List.perm_ext_iff_of_nodup h.nd List.nodup_range).2 fun j => by rw [List.mem_append, List.mem_range, h.all]
  have h2 := h1.length_eq
  rw [List.length_append, List.length_range] at h2
  have h3 : used = [] := List.length_eq_zero_iff.1 (by omega)
  rw [h3]; simp

/-! ### Runs -/

def idB (used : List Nat) : Ev → Bool
  | .call op =>
    match Swap.opId op.toOp with
    | some id => used.contains id
    | none => true
  | _ => true

def runI (k : Queue.Kind) (qid : Nat → Nat) (memory : Nat) (g : Cfg) : Sys → Store.Hist → Swap.Abs Data → List Nat → List Nat → List Ev →
    Option (Sys × Store.Hist × Swap.Abs Data × List Nat × List Nat)
  | s, h, a, ids, us, [] => some (s, h, a, us, ids)
  | s, h, a, ids, us, ev :: evs =>
    if fairB k qid memory g s h a ids ev && idB us ev then
      match s.step k qid g ev with
      | .ok s' => runI k qid memory g s' (E2E.after s.d h (s.store g ev)) (known g s a ev) (used (s.store g ev) ++ ids) (idsAfter g s us ev) evs
      | _ => none
    else none

theorem runI_run {s : Sys} {h : Store.Hist} {a : Swap.Abs Data} {ids us : List Nat} {evs : List Ev} {y} (hr : RunIds k qid cfgs memory g s h a us)
    (hi : ∀ r, s.d.reqs r ≠ none → r ∈ ids) (hb : runI k qid memory g s h a ids us evs = some y) :
    RunIds k qid cfgs memory g y.1 y.2.1 y.2.2.1 y.2.2.2.1 ∧ ∀ r, y.1.d.reqs r ≠ none → r ∈ y.2.2.2.2 := by
  induction evs generalizing s h a ids us with
  | nil => simp only [runI, Option.some.injEq] at hb; rw [← hb]; exact ⟨hr, hi⟩
  | cons ev evs ih =>
    simp only [runI] at hb
    split at hb
    · rename_i hf
      simp only [Bool.and_eq_true] at hf
      split at hb
      · rename_i s1 hs
        refine ih (.next ev hr (fairB_of hi hf.1) ?_ hs) ?_ hb
        · intro op id e1 e2
          subst e1
          have := hf.2
          simp only [idB, e2] at this
          simpa using this
        · rcases step_store hs with ⟨h1, h2⟩ | ⟨op, h1, h2⟩
          · rw [h1, h2]; exact hi
          · rw [h1]; exact Store.step_ids hi h2
      · cases hb
    · cases hb

def finalB : Ev → Bool
  | .cmd _ _ _ => true
  | .env _ => true
  | _ => false

def runE (k : Queue.Kind) (qid : Nat → Nat) (memory : Nat) (g : Cfg) (a : Swap.Abs Data) : Sys → Store.Hist → List Nat → List Mgr.Bid → List Ev →
    Option (Sys × Store.Hist × List Mgr.Bid)
  | t, h, _, gone, [] => some (t, h, gone)
  | t, h, ids, gone, ev :: evs =>
    if fairB k qid memory g t h a ids ev && finalB ev then
      match t.step k qid g ev with
      | .ok t' => runE k qid memory g a t' (E2E.after t.d h (t.store g ev)) (used (t.store g ev) ++ ids) (gone ++ returned g t ev) evs
      | _ => none
    else none

theorem runE_run {s t : Sys} {h h' : Store.Hist} {a : Swap.Abs Data} {ids : List Nat} {gone : List Mgr.Bid} {evs : List Ev} {y} (hr : Ending k qid memory g s h a t h' gone)
    (hi : ∀ r, t.d.reqs r ≠ none → r ∈ ids) (hb : runE k qid memory g a t h' ids gone evs = some y) : Ending k qid memory g s h a y.1 y.2.1 y.2.2 := by
  induction evs generalizing t h' ids gone with
  | nil => simp only [runE, Option.some.injEq] at hb; rw [← hb]; exact hr
  | cons ev evs ih =>
    simp only [runE] at hb
    split at hb
    · rename_i hf
      simp only [Bool.and_eq_true] at hf
      split at hb
      · rename_i s1 hs
        refine ih (.next ev hr ?_ (fairB_of hi hf.1) hs) ?_ hb
        · cases ev <;> first | trivial | cases hf.2
        · rcases step_store hs with ⟨h1, h2⟩ | ⟨op, h1, h2⟩
          · rw [h1, h2]; exact hi
          · rw [h1]; exact Store.step_ids hi h2
      · cases hb
    · cases hb

/-- Calls, then the destructor. -/
def playEnd (evs fin : List Ev) (p : Sys → Store.Hist → Swap.Abs Data → List Nat → Sys → Store.Hist → List Mgr.Bid → Bool) : Option Bool :=
  (Store.start [(8, false)] (fun _ => [0, 0])).bind fun d => (runI .twoQ id 2 g2 (Sys.init 2 g2 d) ⟨[], fun _ => []⟩ {} [] [] evs).bind fun y =>
    match y.1.destroy with
    | .ok t => (runE .twoQ id 2 g2 y.2.2.1 t y.2.1 y.2.2.2.2 [] fin).map fun z => p y.1 y.2.1 y.2.2.1 y.2.2.2.1 z.1 z.2.1 z.2.2
    | _ => none

theorem playEnd_run {evs fin : List Ev} {p : Sys → Store.Hist → Swap.Abs Data → List Nat → Sys → Store.Hist → List Mgr.Bid → Bool} (hp : playEnd evs fin p = some true) :
    ∃ s h a us t h' gone, RunIds .twoQ id [(8, false)] 2 g2 s h a us ∧ Ending .twoQ id 2 g2 s h a t h' gone ∧ p s h a us t h' gone = true := by
  unfold playEnd Store.start at hp
  split at hp
  · rename_i m hm
    simp only [Option.bind_some] at hp
    obtain ⟨y, h1, h2⟩ := Option.bind_eq_some_iff.1 hp
    obtain ⟨r1, r2⟩ := runI_run (cfgs := [(8, false)]) (RunIds.start (Store.Life.start hm (fun _ _ _ => rfl)) (by intro r q _ hq; cases hq) (by intro p _; rfl))
      (by intro r hr; exact absurd rfl hr) h1
    split at h2
    · rename_i t ht
      obtain ⟨z, h3, h4⟩ := Option.map_eq_some_iff.1 h2
      refine ⟨y.1, y.2.1, y.2.2.1, y.2.2.2.1, z.1, z.2.1, z.2.2, r1, runE_run (.start ht) ?_ h3, h4⟩
      have : t.d = y.1.d := by
        unfold Sys.destroy at ht
        split at ht
        · cases ht
        · split at ht
          · cases ht
          · injection ht with ht; rw [← ht]
      rw [this]; exact r2
    · cases h2
  · cases hp

/-- Block 0 is acquired, block 1 is on disk. -/
def evsEnd : List Ev := evsC ++ [.ret]
/-- No block is acquired; and block 1 is extracted. -/
def evsEnd1 : List Ev := evsC ++ [.ret] ++ ca (.release 0 false (fun _ => 0))
def evsEnd2 : List Ev := evsEnd1 ++ ca (.extract 1)

def okEnd (s : Sys) (_ : Store.Hist) (a : Swap.Abs Data) (_ : List Nat) (t : Sys) (_ : Store.Hist) (gone : List Mgr.Bid) : Bool :=
  s.cur.isNone && t.todo.isEmpty && (s.c.blocks 0).ext == some 1 && s.bid 1 == Store.blk 0 0 && a.refs 0 == 1 && gone == [Store.blk 0 2] && t.d.m.live == [Store.blk 0 0] &&
    a.held 1 == none
def okEnd1 (s : Sys) (_ : Store.Hist) (_ : Swap.Abs Data) (_ : List Nat) (t : Sys) (_ : Store.Hist) (gone : List Mgr.Bid) : Bool :=
  s.cur.isNone && t.todo.isEmpty && gone == [Store.blk 0 0, Store.blk 0 2] && t.d.m.live == [Store.blk 0 0]
def okEnd1' (s : Sys) (_ : Store.Hist) (_ : Swap.Abs Data) (_ : List Nat) (t : Sys) (_ : Store.Hist) (_ : List Mgr.Bid) : Bool :=
  s.cur.isNone && t.todo == [.delete 2] && t.bid 2 == Store.blk 0 2
def okEnd2 (s : Sys) (_ : Store.Hist) (a : Swap.Abs Data) (_ : List Nat) (t : Sys) (_ : Store.Hist) (gone : List Mgr.Bid) : Bool :=
  s.cur.isNone && t.todo.isEmpty && gone == [Store.blk 0 0] && s.own.contains 2 && a.held 2 == some [3, 4]

def newB : Ev := .env (.mgr (.new (fun _ => 0) 0 [⟨.null, 0, 2, 2⟩]))

theorem okEnd_run : playEnd evsEnd [cm 200] okEnd = some true := by decide +kernel
theorem okEnd1_run : playEnd evsEnd1 [cm 200, newB, cm 201] okEnd1 = some true := by decide +kernel
theorem okEnd1'_run : playEnd evsEnd1 [cm 200] okEnd1' = some true := by decide +kernel
theorem okEnd2_run : playEnd evsEnd2 [cm 200] okEnd2 = some true := by decide +kernel

end Foxxll.SwapStore
