import Verif.Proofs.SwapStore
import Verif.Proofs.StoreAux
import Verif.Proofs.BlockSchedulerAux
/-
Concrete runs of the block scheduler on top of the store.
-/
namespace Foxxll.SwapStore
open Foxxll

variable {k : Queue.Kind} {qid : Nat → Nat} {cfgs : List (Nat × Bool)} {memory : Nat} {g : Cfg}

/-- `E2E.Foreign`, decided (no cancellations). -/
def foreignB (bs : List Mgr.Bid) (lo hi : Nat) : Store.Op → Bool
  | .mgr (.delete b) => !bs.contains b
  | .mgr (.new _ _ _) => true
  | .fill buf _ => !(decide (lo ≤ buf) && decide (buf < hi))
  | .io _ _ b buf => !bs.contains b && !(decide (lo ≤ buf) && decide (buf < hi))
  | .cancel _ => false
  | .run _ _ _ => true

theorem foreignB_of {bs : List Mgr.Bid} {lo hi : Nat} {d : Store.St} {op : Store.Op} (h : foreignB bs lo hi op = true) :
    E2E.Foreign bs lo hi d op ∧ Store.Orderly k op := by
  cases op with
  | mgr op =>
    cases op with
    | delete b => exact ⟨by simpa [foreignB, E2E.Foreign] using h, fun _ _ e => by cases e⟩
    | new f o out => exact ⟨trivial, fun _ _ e => by cases e⟩
  | fill buf data => exact ⟨by simp [foreignB] at h; simp only [E2E.Foreign]; omega, fun _ _ e => by cases e⟩
  | io r w b buf => exact ⟨by simp [foreignB] at h; exact ⟨h.1, by omega⟩, fun _ _ e => by cases e⟩
  | cancel r => cases h
  | run i op os => exact ⟨trivial, fun _ _ e => by cases e⟩

/-- `Content`, decided. -/
def contentB (qid : Nat → Nat) (s : Store.St) (h : Store.Hist) (b : Mgr.Bid) (v : Data) : Bool :=
  match b.storage with
  | .managed d =>
    match Store.last (s.qs (qid d)).cancelled (h.of b) with
    | some w => over qid s w.r && !s.failed.contains w.r && w.data == v
    | none => false
  | _ => false

theorem contentB_of {s : Sys} {h : Store.Hist} {b : Mgr.Bid} {v : Data} (hc : contentB qid s.d h b v = true) : Content qid s.d h b v := by
  unfold contentB at hc
  split at hc
  · rename_i d hd
    split at hc
    · rename_i w hw
      simp only [Bool.and_eq_true, beq_iff_eq, Bool.not_eq_true'] at hc
      exact ⟨d, w, hd, hw, over_done hc.1.1, by simpa using hc.1.2, hc.2⟩
    · cases hc
  · cases hc

/-- The rules, decided. -/
def fairB (k : Queue.Kind) (qid : Nat → Nat) (memory : Nat) (g : Cfg) (s : Sys) (h : Store.Hist) (a : Swap.Abs Data) (ids : List Nat) : Ev → Bool
  | .call op => decide (Swap.Allowed a op.toOp) && (match op with
      | .init _ (some e) => s.own.contains e
      | .write _ x => x.length == g.raw
      | _ => true)
  | .cmd r f o => !ids.contains r && decide (f o < s.d.m.mgr.disks.length)
  | .ret => true
  | .adopt b v => s.d.m.live.contains b && b.size == g.raw && s.own.all (fun e => s.bid e != b) && contentB qid s.d h b v &&
      Store.allPending qid s.d ids (fun q => q.write || !Store.onB q b)
  | .drop _ => true
  | .env op => Store.allowedB k qid s.d ids op && foreignB (s.own.map s.bid) g.base (g.base + g.count memory) op

theorem fairB_of {s : Sys} {h : Store.Hist} {a : Swap.Abs Data} {ids : List Nat} {ev : Ev} (hi : ∀ r, s.d.reqs r ≠ none → r ∈ ids)
    (hb : fairB k qid memory g s h a ids ev = true) : Fair k qid memory g s h a ev := by
  cases ev with
  | call op =>
    simp only [fairB, Bool.and_eq_true, decide_eq_true_eq] at hb
    refine ⟨hb.1, ?_, ?_⟩
    · intro id e he
      subst he
      simpa using hb.2
    · intro id x he
      subst he
      simpa using hb.2
  | cmd r f o =>
    simp only [fairB, Bool.and_eq_true, decide_eq_true_eq, Bool.not_eq_true'] at hb
    refine ⟨?_, hb.2⟩
    cases hq : s.d.reqs r with
    | none => rfl
    | some q =>
      have := hi r (by rw [hq]; simp)
      simp [this] at hb
  | ret => trivial
  | adopt b v =>
    simp only [fairB, Bool.and_eq_true, beq_iff_eq, List.contains_iff_mem, List.all_eq_true, bne_iff_ne] at hb
    obtain ⟨⟨⟨⟨h1, h2⟩, h3⟩, h4⟩, h5⟩ := hb
    refine ⟨h1, h2, h3, contentB_of h4, ?_⟩
    intro r q hp hq hw hon
    have := Store.allPending_of hi h5 hp hq
    simp [hw, Store.onB_of hon] at this
  | drop e => trivial
  | env op =>
    simp only [fairB, Bool.and_eq_true] at hb
    exact ⟨Store.allowedB_of hi hb.1, (foreignB_of (d := s.d) (k := k) hb.2).2, (foreignB_of (d := s.d) (k := k) hb.2).1⟩

def used : Option Store.Op → List Nat
  | some op => op.ids
  | none => []

def runB (k : Queue.Kind) (qid : Nat → Nat) (memory : Nat) (g : Cfg) : Sys → Store.Hist → Swap.Abs Data → List Nat → List Ev → Option (Sys × Store.Hist × Swap.Abs Data)
  | s, h, a, _, [] => some (s, h, a)
  | s, h, a, ids, ev :: evs =>
    if fairB k qid memory g s h a ids ev then
      match s.step k qid g ev with
      | .ok s' => runB k qid memory g s' (E2E.after s.d h (s.store g ev)) (known g s a ev) (used (s.store g ev) ++ ids) evs
      | _ => none
    else none

/-- The store changes by the operation of the event. -/
theorem step_store {s s' : Sys} {ev : Ev} (hs : s.step k qid g ev = .ok s') :
    (s.store g ev = none ∧ s'.d = s.d) ∨ ∃ op, s.store g ev = some op ∧ Store.step k qid s.d op = some s'.d := by
  cases ev with
  | call op =>
    simp only [Sys.step] at hs
    repeat' split at hs
    all_goals first | (cases hs; done) | (injection hs with hs; subst hs; exact .inl ⟨rfl, rfl⟩)
  | cmd r f o =>
    simp only [Sys.step] at hs
    split at hs
    · cases hs
    · rename_i c l ht
      cases c with
      | new e =>
        simp only [Sys.exec] at hs
        split at hs
        · obtain ⟨d', h1, h2⟩ := via_ok hs
          subst h2
          exact .inr ⟨_, by simp only [Sys.store, ht], h1⟩
        · cases hs
      | wait =>
        simp only [Sys.exec] at hs
        repeat' split at hs
        all_goals first | (cases hs; done) | (injection hs with hs; subst hs; exact .inl ⟨by simp only [Sys.store, ht], rfl⟩)
      | read p e =>
        simp only [Sys.exec] at hs
        split at hs
        · rename_i hrd
          obtain ⟨d', h1, h2⟩ := via_ok hs
          subst h2
          exact .inr ⟨_, by simp only [Sys.store, ht, hrd]; rfl, h1⟩
        · rename_i hrd
          repeat' split at hs
          all_goals first | (cases hs; done) | (injection hs with hs; subst hs; exact .inl ⟨by simp only [Sys.store, ht, hrd]; rfl, rfl⟩)
      | _ =>
        simp only [Sys.exec] at hs
        obtain ⟨d', h1, h2⟩ := via_ok hs
        subst h2
        exact .inr ⟨_, by simp only [Sys.store, ht], h1⟩
  | ret =>
    simp only [Sys.step] at hs
    repeat' split at hs
    all_goals first | (cases hs; done) | (injection hs with hs; subst hs; exact .inl ⟨rfl, rfl⟩)
  | adopt b v =>
    simp only [Sys.step] at hs
    repeat' split at hs
    all_goals first | (cases hs; done) | (injection hs with hs; subst hs; exact .inl ⟨rfl, rfl⟩)
  | drop e =>
    simp only [Sys.step] at hs
    repeat' split at hs
    all_goals first | (cases hs; done) | (injection hs with hs; subst hs; exact .inl ⟨rfl, rfl⟩)
  | env op =>
    obtain ⟨d', h1, h2⟩ := via_ok hs
    subst h2
    exact .inr ⟨op, rfl, h1⟩

theorem runB_run {s : Sys} {h : Store.Hist} {a : Swap.Abs Data} {ids : List Nat} {evs : List Ev} {y} (hr : Run k qid cfgs memory g s h a)
    (hi : ∀ r, s.d.reqs r ≠ none → r ∈ ids) (hb : runB k qid memory g s h a ids evs = some y) : Run k qid cfgs memory g y.1 y.2.1 y.2.2 := by
  induction evs generalizing s h a ids with
  | nil => simp only [runB, Option.some.injEq] at hb; rw [← hb]; exact hr
  | cons ev evs ih =>
    simp only [runB] at hb
    split at hb
    · rename_i hf
      split at hb
      · rename_i s1 hs
        refine ih (.next ev hr (fairB_of hi hf) hs) ?_ hb
        rcases step_store hs with ⟨h1, h2⟩ | ⟨op, h1, h2⟩
        · rw [h1, h2]; exact hi
        · rw [h1]; exact Store.step_ids hi h2
      · cases hb
    · cases hb

theorem witness (evs : List Ev) (memory : Nat) (g : Cfg) (p : Sys → Store.Hist → Swap.Abs Data → Bool) (hg : g.raw = 2)
    (hp : ((Store.start cfgs (fun _ => [0, 0])).bind fun d => (runB k qid memory g (Sys.init memory g d) ⟨[], fun _ => []⟩ {} [] evs).map
      fun y => p y.1 y.2.1 y.2.2) = some true) : ∃ s h a, Run k qid cfgs memory g s h a ∧ p s h a = true := by
  unfold Store.start at hp
  split at hp
  · rename_i m hm
    simp only [Option.bind_some] at hp
    obtain ⟨y, h1, h2⟩ := Option.map_eq_some_iff.1 hp
    refine ⟨y.1, y.2.1, y.2.2, runB_run (Run.start (Store.Life.start hm (fun _ _ _ => rfl)) ?_ ?_) ?_ h1, h2⟩
    · intro r q _ hq; cases hq
    · intro p _; rw [hg]; rfl
    · intro r hr; exact absurd rfl hr
  · cases hp

/-! ### Pairing only -/

def callB (s : Sys) (a : Swap.Abs Data) : Call → Bool
  | .acquire _ _ => true
  | .release id _ _ => decide (0 < a.refs id)
  | .init id (some e) => a.refs id == 0 && a.data id == none && (a.held e).isSome && s.own.contains e
  | .alloc => true
  | _ => false

/-- `FairPaired`, decided (for some calls). -/
def pairB (k : Queue.Kind) (qid : Nat → Nat) (memory : Nat) (g : Cfg) (s : Sys) (h : Store.Hist) (a : Swap.Abs Data) (ids : List Nat) : Ev → Bool
  | .call op => callB s a op
  | ev => fairB k qid memory g s h a ids ev

theorem pairB_of {s : Sys} {h : Store.Hist} {a : Swap.Abs Data} {ids : List Nat} {ev : Ev} (hi : ∀ r, s.d.reqs r ≠ none → r ∈ ids)
    (hb : pairB k qid memory g s h a ids ev = true) : FairPaired k qid memory g s h a ev := by
  cases ev with
  | call op =>
    cases op with
    | acquire id u => exact ⟨trivial, fun _ _ e => by cases e⟩
    | release id u pr => exact ⟨of_decide_eq_true (p := 0 < a.refs id) hb, fun _ _ e => by cases e⟩
    | alloc => exact ⟨trivial, fun _ _ e => by cases e⟩
    | init id e =>
      cases e with
      | none => cases hb
      | some e =>
        simp only [pairB, callB, Bool.and_eq_true, beq_iff_eq, List.contains_iff_mem] at hb
        obtain ⟨⟨⟨h1, h2⟩, h3⟩, h4⟩ := hb
        refine ⟨⟨h1, h2, ?_⟩, ?_⟩
        · intro x hx; cases hx; intro hn; rw [hn] at h3; cases h3
        · intro id' e' he; cases he; exact h4
    | _ => cases hb
  | cmd r f o => exact fairB_of (k := k) (qid := qid) (memory := memory) (g := g) (h := h) (a := a) (ev := .cmd r f o) hi hb
  | ret => trivial
  | adopt b v => exact fairB_of (k := k) (qid := qid) (memory := memory) (g := g) (h := h) (a := a) (ev := .adopt b v) hi hb
  | drop e => trivial
  | env op => exact fairB_of (k := k) (qid := qid) (memory := memory) (g := g) (h := h) (a := a) (ev := .env op) hi hb

def runP (k : Queue.Kind) (qid : Nat → Nat) (memory : Nat) (g : Cfg) : Sys → Store.Hist → Swap.Abs Data → List Nat → List Ev → Option (Sys × Store.Hist × Swap.Abs Data)
  | s, h, a, _, [] => some (s, h, a)
  | s, h, a, ids, ev :: evs =>
    if pairB k qid memory g s h a ids ev then
      match s.step k qid g ev with
      | .ok s' => runP k qid memory g s' (E2E.after s.d h (s.store g ev)) (known g s a ev) (used (s.store g ev) ++ ids) evs
      | _ => none
    else none

theorem runP_run {s : Sys} {h : Store.Hist} {a : Swap.Abs Data} {ids : List Nat} {evs : List Ev} {y} (hr : RunPaired k qid cfgs memory g s h a)
    (hi : ∀ r, s.d.reqs r ≠ none → r ∈ ids) (hb : runP k qid memory g s h a ids evs = some y) : RunPaired k qid cfgs memory g y.1 y.2.1 y.2.2 := by
  induction evs generalizing s h a ids with
  | nil => simp only [runP, Option.some.injEq] at hb; rw [← hb]; exact hr
  | cons ev evs ih =>
    simp only [runP] at hb
    split at hb
    · rename_i hf
      split at hb
      · rename_i s1 hs
        refine ih (.next ev hr (pairB_of hi hf) hs) ?_ hb
        rcases step_store hs with ⟨h1, h2⟩ | ⟨op, h1, h2⟩
        · rw [h1, h2]; exact hi
        · rw [h1]; exact Store.step_ids hi h2
      · cases hb
    · cases hb

/-! ### A run -/

/-- Blocks of two bytes, and buffer 0 as internal block. -/
def g2 : Cfg := ⟨2, [9, 9], 0⟩
def sig : Ev := .env (.run 0 .signal Store.slow)
def wk (n : Nat) : List Ev := List.replicate n (.env (.run 0 .work Store.slow))
def cm (r : Nat) : Ev := .cmd r (fun _ => 0) 0
def ca (op : Call) : List Ev := [.call op, .ret]

/-- The client writes a block, sets it aside, initializes block 0 with it, acquires and changes block 0. -/
def evsA : List Ev := [.env (.mgr (.new (fun _ => 0) 0 [⟨.null, 0, 2, 2⟩])), .env (.fill 5 [7, 8]), .env (.io 0 true (Store.blk 0 0) 5), sig] ++ wk 4 ++
  ca .alloc ++ ca .alloc ++ [.adopt (Store.blk 0 0) [7, 8]] ++ ca (.init 0 (some 1)) ++
  [.call (.acquire 0 false), cm 1, sig] ++ wk 8 ++ [cm 90, .ret, .call (.write 0 [1, 2]), cm 91, .ret] ++ ca (.release 0 true (fun _ => 0))

/-- Block 1 is acquired and changed: block 0 goes to disk. -/
def evsB : List Ev := evsA ++ [.call (.acquire 1 false), cm 2, sig] ++ wk 4 ++ [cm 92, cm 93, .ret, .call (.write 1 [3, 4]), cm 94, .ret] ++ ca (.release 1 true (fun _ => 0))

/-- Block 0 is acquired: an external block is allocated for block 1. -/
def evsB' : List Ev := evsB ++ [.call (.acquire 0 false), cm 95]

def evsC : List Ev := evsB' ++ [cm 3, sig] ++ wk 4 ++ [cm 96, cm 4, sig] ++ wk 8 ++ [cm 97]

def run2 (l : List Ev) (p : Sys → Store.Hist → Swap.Abs Data → Bool) : Option Bool :=
  (Store.start [(8, false)] (fun _ => [0, 0])).bind fun d => (runB .twoQ id 2 g2 (Sys.init 2 g2 d) ⟨[], fun _ => []⟩ {} [] l).map fun y => p y.1 y.2.1 y.2.2

theorem run2_run {l : List Ev} {p : Sys → Store.Hist → Swap.Abs Data → Bool} (hp : run2 l p = some true) :
    ∃ s h a, Run .twoQ id [(8, false)] 2 g2 s h a ∧ p s h a = true := witness l 2 g2 p rfl hp

def okC (s : Sys) (_ : Store.Hist) (a : Swap.Abs Data) : Bool :=
  s.todo.isEmpty && (match s.cur with | some (.acquire 0 false, .int 0) => true | _ => false) && s.d.mem 0 == [1, 2] &&
    a.data 0 == some [1, 2] && a.refs 0 == 0 && (s.d.qs 0).served == [0, 1, 2, 3, 4]

def okD (s : Sys) (_ : Store.Hist) (a : Swap.Abs Data) : Bool :=
  s.cur.isNone && a.refs 0 == 1 && a.refs 1 == 0 && a.work 0 == some [1, 2] && a.data 1 == some [3, 4] && (s.c.blocks 1).int == none &&
    (s.c.blocks 1).ext == some 2 && s.own == [2, 1] && Swap.acquiredCount s.c == 1 && s.c.n == 2

def okE (s : Sys) (_ : Store.Hist) (a : Swap.Abs Data) : Bool := s.cur.isNone && s.own.contains 2 && a.held 2 == some [3, 4]

def okF (s : Sys) (_ : Store.Hist) (_ : Swap.Abs Data) : Bool :=
  (s.d.reqs 3).isNone && decide (0 < s.d.m.mgr.disks.length) && s.todo == [.write 0 2, .wait, .read 0 1] && s.bid 2 == Store.blk 0 2

/-- The worker's write fails. -/
def evsG : List Ev := evsB' ++ [cm 3, sig] ++ List.replicate 4 (.env (.run 0 .work (fun _ => { rc := none })))

def okG (s : Sys) (_ : Store.Hist) (_ : Swap.Abs Data) : Bool :=
  (match s.step .twoQ id g2 (cm 98) with | .throws => true | _ => false) && (s.d.reqs 98).isNone && decide (0 < s.d.m.mgr.disks.length) &&
    s.out == [3] && s.d.failed == [3]

def okH (s : Sys) (_ : Store.Hist) (_ : Swap.Abs Data) : Bool :=
  (match s.step .twoQ id g2 (cm 3) with | .ok _ => true | _ => false) && s.weight == 6

/-- Block 0 gets an external block with content 7, 8, is acquired uninitialized, released not dirty, and acquired again. -/
def evsP : List Ev := [.env (.mgr (.new (fun _ => 0) 0 [⟨.null, 0, 2, 2⟩])), .env (.fill 5 [7, 8]), .env (.io 0 true (Store.blk 0 0) 5), sig] ++ wk 4 ++
  ca .alloc ++ [.adopt (Store.blk 0 0) [7, 8]] ++ ca (.init 0 (some 1)) ++ ca (.acquire 0 true) ++ ca (.release 0 false (fun _ => 0)) ++ [.call (.acquire 0 false)]

def okP (s : Sys) (_ : Store.Hist) (a : Swap.Abs Data) : Bool :=
  s.todo.isEmpty && (match s.cur with | some (.acquire 0 false, .int 0) => true | _ => false) && s.d.mem 0 == [0, 0] &&
    a.data 0 == some [7, 8] && a.refs 0 == 0 && s.d.failed.isEmpty

theorem okP_run : ((Store.start [(8, false)] (fun _ => [0, 0])).bind fun d =>
    (runP .twoQ id 2 g2 (Sys.init 2 g2 d) ⟨[], fun _ => []⟩ {} [] evsP).map fun y => okP y.1 y.2.1 y.2.2) = some true := by decide +kernel

theorem okP_wit : ∃ s h a, RunPaired .twoQ id [(8, false)] 2 g2 s h a ∧ okP s h a = true := by
  have hp := okP_run
  unfold Store.start at hp
  split at hp
  · rename_i m hm
    simp only [Option.bind_some] at hp
    obtain ⟨y, h1, h2⟩ := Option.map_eq_some_iff.1 hp
    refine ⟨y.1, y.2.1, y.2.2, runP_run (RunPaired.start (Store.Life.start hm (fun _ _ _ => rfl)) ?_ ?_) ?_ h1, h2⟩
    · intro r q _ hq; cases hq
    · intro p _; rfl
    · intro r hr; exact absurd rfl hr
  · cases hp

theorem okC_run : run2 evsC okC = some true := by decide +kernel
theorem okD_run : run2 (evsC ++ [.ret]) okD = some true := by decide +kernel
theorem okE_run : run2 (evsC ++ [.ret] ++ ca (.release 0 false (fun _ => 0)) ++ ca (.extract 1)) okE = some true := by decide +kernel
theorem okG_run : run2 evsG okG = some true := by decide +kernel
theorem okH_run : run2 evsB' okH = some true := by decide +kernel
theorem okF_run : run2 evsB' okF = some true := by decide +kernel

end Foxxll.SwapStore
