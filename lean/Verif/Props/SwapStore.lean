import Verif.Proofs.SwapStoreCalls
import Verif.Proofs.SwapStoreEnd
import Verif.Proofs.SwapStoreRun
import Verif.Props.BlockScheduler
/-
C138: swappable blocks on top of block manager, request queues and files.
-/
namespace Foxxll.SwapStore
open Foxxll

variable {k : Queue.Kind} {qid : Nat → Nat} {cfgs : List (Nat × Bool)} {memory : Nat} {g : Cfg} {s : Sys} {h : Store.Hist} {a : Swap.Abs (List UInt8)}

/-- **C138** (partial: runs in which no request fails and the block manager has memory; and no two threads call the scheduler): when a call returns, the client
finds what it may expect - after `acquire`, in the internal block: the data of the last dirty release, whatever was evicted, written and read in between. -/
theorem C138_partial (hraw : 0 < g.raw) (hd : g.dflt.length = g.raw) (hr : Run k qid cfgs memory g s h a) {op : Call} {ans : Ans}
    (hc : s.cur = some (op, ans)) (ht : s.todo = []) : Swap.Expected g.dflt a op.toOp (ans.res g s.d) := by
  obtain ⟨fu, x, R⟩ := run_inv hraw hd hr
  have hP := R.pure
  simp only [Pure, hc, ht] at hP
  obtain ⟨g1, s0, g2, g3, g4⟩ := hP
  have hrd := R.mi.norun (fun p e l => by rw [ht]; intro e; cases e)
  have hres : ans.res g s.d = ans.pure x := by
    cases ans with
    | int p => exact congrArg Swap.Res.data ((R.mi.mem p (g1 p rfl)).2 (fun r q hr => by rw [hrd] at hr; cases hr))
    | _ => rfl
  rw [hres]
  exact Swap.C51_partial (env g.dflt) (env_fresh _) g.dflt (env_fill _) g2 op.toOp g3 g4

/-- Block 0 was written to disk to make room for block 1, then block 1 was, and block 0 was read again. -/
example : ∃ s h a, Run .twoQ id [(8, false)] 2 g2 s h a ∧ s.todo = [] ∧ (∃ ans, s.cur = some (.acquire 0 false, ans) ∧ ans.res g2 s.d = .data [1, 2]) ∧
    a.data 0 = some [1, 2] ∧ a.refs 0 = 0 ∧ (s.d.qs 0).served = [0, 1, 2, 3, 4] ∧ 0 < g2.raw ∧ g2.dflt.length = g2.raw := by
  obtain ⟨s, h, a, hr, hp⟩ := run2_run okC_run
  simp only [okC, Bool.and_eq_true, beq_iff_eq, List.isEmpty_iff] at hp
  obtain ⟨⟨⟨⟨⟨h1, h2⟩, h3⟩, h4⟩, h5⟩, h6⟩ := hp
  refine ⟨s, h, a, hr, h1, ⟨.int 0, ?_, congrArg Swap.Res.data h3⟩, h4, h5, h6, by decide, rfl⟩
  split at h2
  · assumption
  · cases h2

/-- **C138 is false** for clients that keep to pairing only, as C51: a block whose external block contains 7, 8 is acquired uninitialized and released not
dirty; nothing is read, nothing fails, and the next `acquire` gives what was in the memory of the internal block. -/
theorem C138_false : ¬ ∀ (k : Queue.Kind) (qid : Nat → Nat) (cfgs : List (Nat × Bool)) (memory : Nat) (g : Cfg) (s : Sys) (h : Store.Hist) (a : Swap.Abs (List UInt8))
    (op : Call) (ans : Ans), 0 < g.raw → g.dflt.length = g.raw → RunPaired k qid cfgs memory g s h a → s.d.failed = [] → s.cur = some (op, ans) → s.todo = [] →
      Swap.Expected g.dflt a op.toOp (ans.res g s.d) := by
  intro H
  obtain ⟨s, h, a, hr, hp⟩ := okP_wit
  simp only [okP, Bool.and_eq_true, beq_iff_eq, List.isEmpty_iff] at hp
  obtain ⟨⟨⟨⟨⟨h1, h2⟩, h3⟩, h4⟩, h5⟩, h6⟩ := hp
  have hc : s.cur = some (.acquire 0 false, .int 0) := by
    split at h2
    · assumption
    · cases h2
  have := H _ _ _ _ _ s h a _ _ (by decide) rfl hr h6 hc h1
  have e : s.d.mem g2.base = [0, 0] := h3
  simp [Swap.Expected, Call.toOp, Ans.res, h4, h5, e] at this

/-- Between calls, the client finds the present contents of an acquired block in its internal block; two blocks have different internal blocks. -/
theorem C138_work (hraw : 0 < g.raw) (hd : g.dflt.length = g.raw) (hr : Run k qid cfgs memory g s h a) (hc : s.cur = none) {id : Nat} (hid : 0 < a.refs id) :
    ∃ p, p < g.count memory ∧ (s.c.blocks id).int = some p ∧ a.work id = some (s.d.mem (g.base + p)) ∧
      (∀ j, (s.c.blocks j).int = some p → j = id) ∧ ∀ r q, Store.Pending qid s.d r → s.d.reqs r = some q → q.buf ≠ g.base + p := by
  obtain ⟨fu, x, R⟩ := run_inv hraw hd hr
  have hP := R.pure
  simp only [Pure, hc] at hP
  obtain ⟨ht, hrun⟩ := hP
  have hinv := Swap.run_inv (env g.dflt) (env_fresh _) (env_fill _) hrun
  have hrd := R.mi.norun (fun p e l => by rw [ht]; intro e; cases e)
  have hz := R.zero
  rw [ht] at hz
  have hout : s.out = [] := List.length_eq_zero_iff.1 hz
  have hrefs : 0 < (s.c.blocks id).refs := by rw [← show a.refs id = (s.c.blocks id).refs from (hinv.ok id).refs]; exact hid
  obtain ⟨p, hp⟩ := Option.ne_none_iff_exists'.1 (hinv.core.refsInt id hrefs)
  have hp : (s.c.blocks id).int = some p := hp
  have hlt : p < g.count memory := by rw [← R.max]; exact core_lt (core_split hinv.core) hp
  refine ⟨p, hlt, hp, ?_, fun j hj => hinv.core.inj j id p hj hp, R.mi.quiet hrd hout hlt⟩
  rw [((hinv.ok id).used p hrefs hp).1]
  exact congrArg some ((R.mi.mem p hlt).2 (fun r q hr => by rw [hrd] at hr; cases hr)).symm

/-- After the call above. -/
example : ∃ s h a, Run .twoQ id [(8, false)] 2 g2 s h a ∧ s.cur = none ∧ 0 < a.refs 0 ∧ a.work 0 = some [1, 2] := by
  obtain ⟨s, h, a, hr, hp⟩ := run2_run okD_run
  simp only [okD, Bool.and_eq_true, beq_iff_eq, Option.isNone_iff_eq_none] at hp
  obtain ⟨⟨⟨⟨⟨⟨⟨⟨⟨h1, h2⟩, h3⟩, h4⟩, h5⟩, h6⟩, h7⟩, h8⟩, h9⟩, h10⟩ := hp
  exact ⟨s, h, a, hr, h1, by omega, h4⟩

/-- Between calls, the data of a block that is not acquired are in its internal block, or in its external block; there the file contains them. -/
theorem C138_data (hraw : 0 < g.raw) (hd : g.dflt.length = g.raw) (hr : Run k qid cfgs memory g s h a) (hc : s.cur = none) {id : Nat} (hid : a.refs id = 0)
    {v : List UInt8} (hv : a.data id = some v) :
    (∃ p, p < g.count memory ∧ (s.c.blocks id).int = some p ∧ s.d.mem (g.base + p) = v) ∨
      ∃ e d, (s.c.blocks id).int = none ∧ (s.c.blocks id).ext = some e ∧ e ∈ s.own ∧ s.bid e ∈ s.d.m.live ∧ Content qid s.d h (s.bid e) v ∧
        (s.bid e).storage = .managed d ∧ Files.pread (s.d.files d) (s.bid e).off g.raw = v := by
  obtain ⟨fu, x, R⟩ := run_inv hraw hd hr
  have hP := R.pure
  simp only [Pure, hc] at hP
  obtain ⟨ht, hrun⟩ := hP
  have hinv := Swap.run_inv (env g.dflt) (env_fresh _) (env_fill _) hrun
  have hrd := R.mi.norun (fun p e l => by rw [ht]; intro e; cases e)
  have hg := R.good
  have hz := R.zero
  rw [ht] at hg hz
  have hout : s.out = [] := List.length_eq_zero_iff.1 hz
  have hrefs : (s.c.blocks id).refs = 0 := by rw [← show a.refs id = (s.c.blocks id).refs from (hinv.ok id).refs]; exact hid
  cases hp : (s.c.blocks id).int with
  | some p =>
    have hlt : p < g.count memory := by rw [← R.max]; exact core_lt (core_split hinv.core) hp
    refine .inl ⟨p, hlt, rfl, ?_⟩
    have := (hinv.ok id).idleIn p hrefs hp
    rw [hv] at this; injection this with this
    rw [this]
    exact (R.mi.mem p hlt).2 (fun r q hr => by rw [hrd] at hr; cases hr)
  | none =>
    have hdirty : (s.c.blocks id).dirty = false := by
      cases hb : (s.c.blocks id).dirty with
      | false => rfl
      | true => exact absurd hp (hinv.core.dirtyInt id hb)
    have := (hinv.ok id).idleOut hrefs hdirty
    rw [hv] at this
    obtain ⟨e, he, hve⟩ := Option.map_eq_some_iff.1 this.symm
    have he : (s.c.blocks id).ext = some e := he
    have ho : e ∈ s.own := hg.ext id e he
    obtain ⟨dk, w, h1, h2, h3, h4⟩ := R.mi.val e ho (hg.full e ho)
    have h4 : ¬ Store.Pending qid s.d w.r ∧ w.r ∉ s.d.failed := h4.resolve_left (by rw [hout]; simp)
    have hve : x.2 e = v := hve
    rw [hve] at h3
    obtain ⟨l1, l2⟩ := R.mi.live e ho
    refine .inr ⟨e, dk, rfl, he, ho, l1, ⟨dk, w, h1, h2, h4.1, h4.2, h3⟩, h1, ?_⟩
    rw [← l2, ← h3]
    exact Store.C98_disk R.mi.life l1 h1 h2 h4.1 h4.2

/-- Block 1 is on disk. -/
example : ∃ s h a, Run .twoQ id [(8, false)] 2 g2 s h a ∧ s.cur = none ∧ a.refs 1 = 0 ∧ a.data 1 = some [3, 4] ∧ (s.c.blocks 1).int = none := by
  obtain ⟨s, h, a, hr, hp⟩ := run2_run okD_run
  simp only [okD, Bool.and_eq_true, beq_iff_eq, Option.isNone_iff_eq_none] at hp
  obtain ⟨⟨⟨⟨⟨⟨⟨⟨⟨h1, h2⟩, h3⟩, h4⟩, h5⟩, h6⟩, h7⟩, h8⟩, h9⟩, h10⟩ := hp
  exact ⟨s, h, a, hr, h1, h3, h5, h6⟩

/-- Between calls, the client's external blocks (set aside, or extracted) contain what it knows. -/
theorem C138_external (hraw : 0 < g.raw) (hd : g.dflt.length = g.raw) (hr : Run k qid cfgs memory g s h a) (hc : s.cur = none) {e : Nat} (ho : e ∈ s.own)
    {v : List UInt8} (hv : a.held e = some v) :
    s.bid e ∈ s.d.m.live ∧ Content qid s.d h (s.bid e) v ∧ ∃ d, (s.bid e).storage = .managed d ∧ Files.pread (s.d.files d) (s.bid e).off g.raw = v := by
  obtain ⟨fu, x, R⟩ := run_inv hraw hd hr
  have hP := R.pure
  simp only [Pure, hc] at hP
  obtain ⟨ht, hrun⟩ := hP
  have hx : x.2 e = v := Swap.C51_external (env g.dflt) (env_fresh _) g.dflt (env_fill _) hrun hv
  have hg := R.good
  have hz := R.zero
  rw [ht] at hg hz
  have hout : s.out = [] := List.length_eq_zero_iff.1 hz
  obtain ⟨dk, w, h1, h2, h3, h4⟩ := R.mi.val e ho (hg.full e ho)
  have h4 : ¬ Store.Pending qid s.d w.r ∧ w.r ∉ s.d.failed := h4.resolve_left (by rw [hout]; simp)
  rw [hx] at h3
  obtain ⟨l1, l2⟩ := R.mi.live e ho
  refine ⟨l1, ⟨dk, w, h1, h2, h4.1, h4.2, h3⟩, dk, h1, ?_⟩
  rw [← l2, ← h3]
  exact Store.C98_disk R.mi.life l1 h1 h2 h4.1 h4.2

/-- Block 1 was extracted. -/
example : ∃ s h a, Run .twoQ id [(8, false)] 2 g2 s h a ∧ s.cur = none ∧ 2 ∈ s.own ∧ a.held 2 = some [3, 4] := by
  obtain ⟨s, h, a, hr, hp⟩ := run2_run okE_run
  simp only [okE, Bool.and_eq_true, beq_iff_eq, Option.isNone_iff_eq_none, List.contains_iff_mem] at hp
  exact ⟨s, h, a, hr, hp.1.1, hp.1.2, hp.2⟩

/-- The scheduler keeps the rules of requests, blocks and buffers, and uses only its own blocks and buffers. -/
theorem C138_rules (hraw : 0 < g.raw) (hd : g.dflt.length = g.raw) (hr : Run k qid cfgs memory g s h a) {r : Nat} {f : Nat → Nat} {o : Nat}
    (hfr : s.d.reqs r = none) (hf : f o < s.d.m.mgr.disks.length) {op : Store.Op} (hop : s.store g (.cmd r f o) = some op) :
    Store.Allowed k qid s.d op ∧ Inside (s.own.map s.bid) g.base (g.base + g.count memory) g.raw op := by
  obtain ⟨fu, x, R⟩ := run_inv hraw hd hr
  cases ht : s.todo with
  | nil => simp only [Sys.store, ht] at hop; cases hop
  | cons c l =>
    have hcans := R.cans
    rw [ht] at hcans
    refine ⟨(R.mi.ready hraw ht hcans.1 hfr hf hop).1, ?_⟩
    have hcan := hcans.1
    simp only [Sys.store, ht] at hop
    cases c with
    | wait => cases hop
    | read p e =>
      simp only at hop
      split at hop
      · injection hop with hop; subst hop
        exact ⟨List.mem_map_of_mem hcan.1, Nat.le_add_right _ _, Nat.add_lt_add_left hcan.2.2.1 _⟩
      · cases hop
    | new e =>
      injection hop with hop; subst hop
      intro b hb
      simp only [List.mem_singleton] at hb
      subst hb; rfl
    | delete e => injection hop with hop; subst hop; exact List.mem_map_of_mem hcan.1
    | write p e => injection hop with hop; subst hop; exact ⟨List.mem_map_of_mem hcan.1, Nat.le_add_right _ _, Nat.add_lt_add_left hcan.2 _⟩
    | fill p => injection hop with hop; subst hop; exact ⟨Nat.le_add_right _ _, Nat.add_lt_add_left hcan.1 _, hd⟩
    | put p v => injection hop with hop; subst hop; exact ⟨Nat.le_add_right _ _, Nat.add_lt_add_left hcan.1 _, hcan.2.2⟩

/-- Block 1 is about to be written to a block just allocated. -/
example : ∃ s h a, Run .twoQ id [(8, false)] 2 g2 s h a ∧ s.d.reqs 3 = none ∧ 0 < s.d.m.mgr.disks.length ∧
    s.store g2 (.cmd 3 (fun _ => 0) 0) = some (.io 3 true (Store.blk 0 2) 0) := by
  obtain ⟨s, h, a, hr, hp⟩ := run2_run okF_run
  simp only [okF, Bool.and_eq_true, beq_iff_eq, Option.isNone_iff_eq_none, decide_eq_true_eq] at hp
  obtain ⟨⟨⟨h1, h2⟩, h3⟩, h4⟩ := hp
  refine ⟨s, h, a, hr, h1, h2, ?_⟩
  simp only [Sys.store, h3, h4]
  rfl

/-- No external block is lost: between calls each block of the scheduler is the external block of a swappable block, or was set aside by or given to the client;
and each external block of a swappable block is allocated, no two of them the same. -/
theorem C138_blocks (hraw : 0 < g.raw) (hd : g.dflt.length = g.raw) (hr : Run k qid cfgs memory g s h a) (hc : s.cur = none) :
    (∀ e ∈ s.own, (∃ id, (s.c.blocks id).ext = some e) ∨ a.held e ≠ none) ∧
    (∀ id e, (s.c.blocks id).ext = some e → e ∈ s.own ∧ s.bid e ∈ s.d.m.live ∧ (s.bid e).size = g.raw ∧ a.held e = none) ∧
    ∀ id id' e e', (s.c.blocks id).ext = some e → (s.c.blocks id').ext = some e' → s.bid e = s.bid e' → id = id' := by
  obtain ⟨fu, x, R⟩ := run_inv hraw hd hr
  have hP := R.pure
  simp only [Pure, hc] at hP
  obtain ⟨ht, hrun⟩ := hP
  have hinv := Swap.run_inv (env g.dflt) (env_fresh _) (env_fill _) hrun
  have hg := R.good
  rw [ht] at hg
  refine ⟨?_, ?_, ?_⟩
  · intro e he
    rcases live_iff.1 (hg.own e he) with ⟨i, _, h2⟩ | h1
    · exact .inl ⟨i, h2⟩
    · exact .inr ((hinv.held e).1.2 h1)
  · intro id e he
    have ho : e ∈ s.own := hg.ext id e he
    refine ⟨ho, (R.mi.live e ho).1, (R.mi.live e ho).2, ?_⟩
    have := (hinv.core.extLive id e he).2
    by_cases hh : a.held e = none
    · exact hh
    · exact absurd ((hinv.held e).1.1 hh) this
  · intro id id' e e' h1 h2 hb
    have := R.mi.inj e (hg.ext id e h1) e' (hg.ext id' e' h2) hb
    subst this
    exact hinv.core.extOwn id id' e h1 h2

/-- Number 1 is the block set aside, number 2 was allocated by the scheduler. -/
example : ∃ s h a, Run .twoQ id [(8, false)] 2 g2 s h a ∧ s.cur = none ∧ s.own = [2, 1] ∧ (s.c.blocks 1).ext = some 2 := by
  obtain ⟨s, h, a, hr, hp⟩ := run2_run okD_run
  simp only [okD, Bool.and_eq_true, beq_iff_eq, Option.isNone_iff_eq_none] at hp
  obtain ⟨⟨⟨⟨⟨⟨⟨⟨⟨h1, h2⟩, h3⟩, h4⟩, h5⟩, h6⟩, h7⟩, h8⟩, h9⟩, h10⟩ := hp
  exact ⟨s, h, a, hr, h1, h8, h7⟩

/-- Calls according to the rules begin: `acquire` if the block is internal or fewer blocks are acquired than there are internal blocks, the others always. -/
theorem C138_calls (hraw : 0 < g.raw) (hd : g.dflt.length = g.raw) (hr : Run k qid cfgs memory g s h a) (hc : s.cur = none) (op : Call)
    (ha : Swap.Allowed a op.toOp) (hid : ∀ id, Swap.opId op.toOp = some id → id < s.c.n) (hm : ∀ m l, op ≠ .retag m l) :
    (∃ s', s.step k qid g (.call op) = .ok s') ↔
      ∀ id u, op = .acquire id u → (s.c.blocks id).isInternal = true ∨ Swap.acquiredCount s.c < g.count memory := by
  obtain ⟨fu, x, R⟩ := run_inv hraw hd hr
  have hP := R.pure
  simp only [Pure, hc] at hP
  obtain ⟨ht, hrun⟩ := hP
  have hinv := Swap.run_inv (env g.dflt) (env_fresh _) (env_fill _) hrun
  have key : (∃ s', s.step k qid g (.call op) = .ok s') ↔ (Swap.step (env g.dflt) (join s.c x) op.toOp).isSome = true := by
    simp only [Sys.step, hc]
    cases hp : plan s.c op with
    | none => simp [plan_none hp]
    | some y =>
      obtain ⟨ans, c', l⟩ := y
      obtain ⟨r, h1, _⟩ := plan_pure (dflt := g.dflt) (x := x) hp
      simp [h1]
  rw [key]
  by_cases hq : ∃ id u, op = .acquire id u
  · obtain ⟨id, u, rfl⟩ := hq
    have hlt : id < s.c.n := hid id rfl
    have := Swap.acquire_iff (E := env g.dflt) (env_fresh _) hinv.core hinv.ev id u hlt
    simp only [Call.toOp, Swap.step, Option.isSome_map]
    rw [this, show (join s.c x).max = g.count memory from R.max]
    constructor
    · intro h id' u' e
      injection e with e1 e2; subst e1
      exact h
    · intro h
      exact h id u rfl
  · refine ⟨fun _ id u e => absurd ⟨id, u, e⟩ hq, fun _ => ?_⟩
    refine Swap.C52_progress (env g.dflt) (env_fresh _) g.dflt (env_fill _) hrun op.toOp ha hid ?_ ?_
    · intro id u e
      cases op <;> cases e
      exact hq ⟨_, _, rfl⟩
    · intro m l e
      cases op <;> cases e
      exact hm _ _ rfl

/-- There is one internal block, and it is in use: block 1 cannot be acquired. -/
example : ∃ s h a, Run .twoQ id [(8, false)] 2 g2 s h a ∧ s.cur = none ∧ 1 < s.c.n ∧ (s.c.blocks 1).isInternal = false ∧
    ¬ Swap.acquiredCount s.c < g2.count 2 ∧ a.refs 1 = 0 := by
  obtain ⟨s, h, a, hr, hp⟩ := run2_run okD_run
  simp only [okD, Bool.and_eq_true, beq_iff_eq, Option.isNone_iff_eq_none] at hp
  obtain ⟨⟨⟨⟨⟨⟨⟨⟨⟨h1, h2⟩, h3⟩, h4⟩, h5⟩, h6⟩, h7⟩, h8⟩, h9⟩, h10⟩ := hp
  refine ⟨s, h, a, hr, h1, by omega, by simp [Swap.SB.isInternal, h6], ?_, h3⟩
  rw [h9]; decide

/-- A call comes to its end, whatever the operating system answers: with steps of the call itself and of the threads inside of the queues only, it
reaches its return or an exception. -/
theorem C138_end (hraw : 0 < g.raw) (hd : g.dflt.length = g.raw) (hcf : cfgs ≠ []) (os : Nat → Files.Sys) (hr : Run k qid cfgs memory g s h a) :
    ∃ t h', Leads k qid memory g a os s h t h' ∧ t.cur = s.cur ∧ t.c = s.c ∧
      (t.todo = [] ∨ ∃ r f o, Fair k qid memory g t h' a (.cmd r f o) ∧ t.step k qid g (.cmd r f o) = .throws) := by
  generalize hn : s.weight = n
  induction n using Nat.strongRecOn generalizing s h with
  | ind n ih =>
    cases ht : s.todo with
    | nil => exact ⟨s, h, .refl _ _, rfl, rfl, .inl ht⟩
    | cons c l =>
      obtain ⟨d', r, h1, h2, h3, h4⟩ := one_cmd (os := os) hraw hd hcf hr ht
      have hr' := h1.run hr
      cases hs : Sys.step k qid g { s with d := d' } (.cmd r (fun _ => 0) 0) with
      | no => exact absurd hs h3
      | bad => exact absurd hs h4
      | throws => exact ⟨_, h, h1, rfl, rfl, .inr ⟨r, _, _, h2, hs⟩⟩
      | ok s1 =>
        obtain ⟨w1, w2, w3⟩ := cmd_weight (fun r hr => rd_todo hraw hd hr' hr) hs
        have hw : s1.weight < n := by rw [← hn]; exact w1
        have hstep := Run.next _ hr' h2 hs
        obtain ⟨t, h', g1, g2, g3, g4⟩ := ih _ hw (h := E2E.after d' h (Sys.store g { s with d := d' } (.cmd r (fun _ => 0) 0))) (s := s1) hstep rfl
        exact ⟨t, h', h1.trans (.next (.cmd r (fun _ => 0) 0) (by exact trivial) h2 hs g1), g2.trans w2, g3.trans w3, g4⟩

/-- Block 1 is about to be written, block 0 will be read. -/
example : ∃ s h a, Run .twoQ id [(8, false)] 2 g2 s h a ∧ s.todo ≠ [] ∧ s.weight ≠ 0 ∧ [(8, false)] ≠ ([] : List (Nat × Bool)) := by
  obtain ⟨s, h, a, hr, hp⟩ := run2_run okF_run
  simp only [okF, Bool.and_eq_true, beq_iff_eq, Option.isNone_iff_eq_none, decide_eq_true_eq] at hp
  obtain ⟨⟨⟨h1, h2⟩, h3⟩, h4⟩ := hp
  refine ⟨s, h, a, hr, by rw [h3]; simp, ?_, by simp⟩
  unfold Sys.weight
  rw [h3]
  split <;> simp

/-- A call makes no more steps than its commands and their requests, whatever happens in between. -/
theorem C138_steps (hraw : 0 < g.raw) (hd : g.dflt.length = g.raw) (hr : Run k qid cfgs memory g s h a) {s' : Sys} {r : Nat} {f : Nat → Nat} {o : Nat} :
    (s.step k qid g (.cmd r f o) = .ok s' → s'.weight < s.weight) ∧ ∀ op, s.step k qid g (.env op) = .ok s' → s'.weight = s.weight := by
  refine ⟨fun hs => (cmd_weight (fun r hrd => rd_todo hraw hd hr hrd) hs).1, fun op hs => ?_⟩
  obtain ⟨d, _, rfl⟩ := via_ok hs
  rfl

/-- Now block 1 is written. -/
example : ∃ s h a, Run .twoQ id [(8, false)] 2 g2 s h a ∧ ∃ s', s.step .twoQ id g2 (cm 3) = .ok s' ∧ s.weight = 6 := by
  obtain ⟨s, h, a, hr, hp⟩ := run2_run okH_run
  simp only [okH, Bool.and_eq_true, beq_iff_eq] at hp
  refine ⟨s, h, a, hr, ?_⟩
  cases hs : s.step .twoQ id g2 (cm 3) with
  | ok s' => exact ⟨s', rfl, hp.2⟩
  | _ => rw [hs] at hp; simp at hp

/-- An exception means that a request of the call has failed, or that the block manager found no space. -/
theorem C138_throws (hraw : 0 < g.raw) (hd : g.dflt.length = g.raw) (hr : Run k qid cfgs memory g s h a) {r : Nat} {f : Nat → Nat} {o : Nat}
    (hf : Fair k qid memory g s h a (.cmd r f o)) (hs : s.step k qid g (.cmd r f o) = .throws) :
    (∃ r', (r' ∈ s.out ∨ s.rd = some r') ∧ r' ∈ s.d.failed) ∨ (∀ m bs, s.d.m.mgr.newBlocks f o [⟨.null, 0, g.raw, g.raw⟩] ≠ (m, bs, .ok ())) := by
  obtain ⟨fu, x, R⟩ := run_inv hraw hd hr
  have nov : ∀ {op : Store.Op} {y : Store.St → Sys}, s.via k qid op y ≠ .throws := by
    intro op y; unfold Sys.via; split <;> exact fun h => by cases h
  simp only [Sys.step] at hs
  split at hs
  · cases hs
  rename_i c l ht
  cases c with
  | new e =>
    refine .inr fun m bs he => ?_
    obtain ⟨lost, hi⟩ := Mgr.mreach_inv (Store.life_inv R.mi.life).mgr
    have hv : (Mgr.MOp.new f o [⟨.null, 0, g.raw, g.raw⟩]).Valid s.d.m := by
      refine ⟨?_, ?_⟩
      · intro i h1 h2
        simp at h2
        have : i = o := by omega
        rw [this]; exact hf.2
      · intro b hb
        simp only [List.mem_singleton] at hb
        subst hb
        exact ⟨hraw, .inr rfl⟩
    obtain ⟨_, m', out', r', _, _, _, g1, _, g2, _⟩ := Mgr.newBlocks_spec hi f o _ hv
    rw [he] at g1
    injection g1 with _ g1
    injection g1 with g1 _
    subst g1
    have hl := congrArg List.length g2
    simp only [List.length_map, List.length_cons, List.length_nil] at hl
    obtain ⟨b, rfl⟩ := List.length_eq_one_iff.1 hl
    simp only [Sys.exec, he] at hs
    exact nov hs
  | delete e => simp only [Sys.exec] at hs; exact absurd hs nov
  | fill p => simp only [Sys.exec] at hs; exact absurd hs nov
  | put p v => simp only [Sys.exec] at hs; exact absurd hs nov
  | write p e => simp only [Sys.exec] at hs; exact absurd hs nov
  | wait =>
    simp only [Sys.exec] at hs
    repeat' split at hs
    all_goals first | cases hs | skip
    rename_i r' rest ho _ hfl
    exact .inl ⟨r', .inl (by rw [ho]; exact List.mem_cons_self ..), by simpa using hfl⟩
  | read p e =>
    simp only [Sys.exec] at hs
    split at hs
    · exact absurd hs nov
    · repeat' split at hs
      all_goals first | cases hs | skip
      rename_i r' ho _ hfl
      exact .inl ⟨r', .inr ho, by simpa using hfl⟩

/-- The write of block 1 failed. -/
example : ∃ s h a, Run .twoQ id [(8, false)] 2 g2 s h a ∧ Fair .twoQ id 2 g2 s h a (cm 98) ∧ s.step .twoQ id g2 (cm 98) = .throws ∧ 3 ∈ s.out ∧ 3 ∈ s.d.failed := by
  obtain ⟨s, h, a, hr, hp⟩ := run2_run okG_run
  simp only [okG, Bool.and_eq_true, beq_iff_eq, Option.isNone_iff_eq_none, decide_eq_true_eq] at hp
  obtain ⟨⟨⟨⟨h1, h2⟩, h3⟩, h4⟩, h5⟩ := hp
  refine ⟨s, h, a, hr, ⟨h2, h3⟩, ?_, by rw [h4]; simp, by rw [h5]; simp⟩
  cases hs : s.step .twoQ id g2 (cm 98) with
  | throws => rfl
  | _ => rw [hs] at h1; simp at h1

end Foxxll.SwapStore
