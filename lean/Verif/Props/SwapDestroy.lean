import Verif.Proofs.SwapDestroy
import Verif.Props.SwapStore
/-
C147: the destructor of a block scheduler.
-/
namespace Foxxll.SwapStore
open Foxxll

variable {k : Queue.Kind} {qid : Nat → Nat} {cfgs : List (Nat × Bool)} {memory : Nat} {g : Cfg} {s t : Sys} {h h' : Store.Hist} {a : Swap.Abs (List UInt8)} {used : List Nat}
  {gone : List Mgr.Bid}

/-- **C147** (partial: blocks that are not acquired; the runs are those in which no request has failed before): when the destructor is at its end, it has returned to the block manager
the external block of each swappable block that is not acquired, each once, and nothing else. -/
theorem C147_partial (hraw : 0 < g.raw) (hd : g.dflt.length = g.raw) (hr : RunIds k qid cfgs memory g s h a used) (hc : s.cur = none)
    (he : Ending k qid memory g s h a t h' gone) (ht : t.todo = []) :
    gone.Nodup ∧ ∀ b, b ∈ gone ↔ ∃ id e, a.refs id = 0 ∧ (s.c.blocks id).ext = some e ∧ s.bid e = b := by
  obtain ⟨ids0, _, h2, h3, h4, u, b, don, ids, S⟩ := ending_sim hraw hd hr.run hc he
  obtain ⟨_, _, _, x, hrun⟩ := quiet hraw hd hr.run hc
  have hinv := Swap.run_inv (env g.dflt) (env_fresh _) (env_fill _) hrun
  have hrefs : ∀ id, a.refs id = (s.c.blocks id).refs := fun id => (hinv.ok id).refs
  obtain ⟨_, b2, b3⟩ := C138_blocks hraw hd hr.run hc
  have hids : ids = [] := by
    have := S.cmds
    rw [ht] at this
    cases ids with
    | nil => rfl
    | cons _ _ => cases this
  have hdon : ids0 = don := by rw [S.split, hids, List.append_nil]
  subst hdon
  have hok := ids_inv hraw hd hr s.d
  rw [hc] at hok
  refine ⟨?_, fun b => ?_⟩
  · rw [S.gone]
    unfold List.Nodup
    rw [List.pairwise_map]
    refine h2.imp_of_mem ?_
    intro i j hi hj hij he
    obtain ⟨e, e1⟩ := Option.ne_none_iff_exists'.1 (h3 i hi).2.2
    obtain ⟨e', e2⟩ := Option.ne_none_iff_exists'.1 (h3 j hj).2.2
    rw [e1, e2] at he
    exact hij (b3 i j e e' e1 e2 he)
  · rw [S.gone, List.mem_map]
    constructor
    · rintro ⟨id, hid, rfl⟩
      obtain ⟨_, i2, i3⟩ := h3 id hid
      obtain ⟨e, e1⟩ := Option.ne_none_iff_exists'.1 i3
      exact ⟨id, e, by rw [hrefs]; exact i2, e1, by rw [e1]; rfl⟩
    · rintro ⟨id, e, i1, i2, rfl⟩
      have hne : (s.c.blocks id).ext ≠ none := by rw [i2]; simp
      have hfree : s.c.freeIds.length ≠ s.c.n := fun hf => hne (by rw [idOk_free hok hf id])
      have hlt : id < s.c.n := by
        rw [hok.all]
        refine .inl ?_
        by_cases hu : id ∈ used
        · exact hu
        · exact absurd (by rw [hok.blank id hu]) hne
      exact ⟨id, h4 hfree id hlt (by rw [← hrefs]; exact i1) hne, by rw [i2]; rfl⟩

/-- Block 0 in memory and on disk, block 1 on disk; when the first external block is returned, another client gets the space at once. -/
example : ∃ s h a us t h' gone, RunIds .twoQ id [(8, false)] 2 g2 s h a us ∧ Ending .twoQ id 2 g2 s h a t h' gone ∧ s.cur = none ∧ t.todo = [] ∧
    gone = [Store.blk 0 0, Store.blk 0 2] ∧ t.d.m.live = [Store.blk 0 0] := by
  obtain ⟨s, h, a, us, t, h', gone, h1, h2, h3⟩ := playEnd_run okEnd1_run
  simp only [okEnd1, Bool.and_eq_true, beq_iff_eq, Option.isNone_iff_eq_none, List.isEmpty_iff] at h3
  exact ⟨s, h, a, us, t, h', gone, h1, h2, h3.1.1.1, h3.1.1.2, h3.1.2, h3.2⟩

/-- **C147 is false** when a block is acquired: its external block remains allocated after the destructor, and nobody knows it any more. -/
theorem C147_false : ¬ ∀ (k : Queue.Kind) (qid : Nat → Nat) (cfgs : List (Nat × Bool)) (memory : Nat) (g : Cfg) (s t : Sys) (h h' : Store.Hist) (a : Swap.Abs (List UInt8))
    (used : List Nat) (gone : List Mgr.Bid), 0 < g.raw → g.dflt.length = g.raw → RunIds k qid cfgs memory g s h a used → s.cur = none →
      Ending k qid memory g s h a t h' gone → t.todo = [] → ∀ id e, (s.c.blocks id).ext = some e → a.held e = none → s.bid e ∉ t.d.m.live := by
  intro H
  obtain ⟨s, h, a, us, t, h', gone, h1, h2, h3⟩ := playEnd_run okEnd_run
  simp only [okEnd, Bool.and_eq_true, beq_iff_eq, Option.isNone_iff_eq_none, List.isEmpty_iff] at h3
  obtain ⟨⟨⟨⟨⟨⟨⟨g1, g2⟩, g3⟩, g4⟩, g5⟩, g6⟩, g7⟩, g8⟩ := h3
  refine H _ _ _ _ _ s t h h' a us gone (by decide) rfl h1 g1 h2 g2 0 1 g3 g8 ?_
  rw [g4, g7]; simp

/-- No assertion fails in the destructor. -/
theorem C147_starts (hraw : 0 < g.raw) (hd : g.dflt.length = g.raw) (hr : Run k qid cfgs memory g s h a) (hc : s.cur = none) : ∃ t, s.destroy = .ok t := by
  obtain ⟨_, _, _, x, hrun⟩ := quiet hraw hd hr hc
  have hinv := Swap.run_inv (env g.dflt) (env_fresh _) (env_fill _) hrun
  obtain ⟨c', ids0, h1, _⟩ := destroy_cmds (core_split hinv.core) (c := s.c) ⟨hinv.ev.1, hinv.ev.2, hinv.ev.3⟩
  refine ⟨{ s with c := c', todo := ids0.map (del s.c) }, ?_⟩
  simp only [Sys.destroy, hc, h1]

example : ∃ s h a, Run .twoQ id [(8, false)] 2 g2 s h a ∧ s.cur = none ∧ a.refs 0 = 1 ∧ a.data 1 = some [3, 4] := by
  obtain ⟨s, h, a, hr, hp⟩ := run2_run okD_run
  simp only [okD, Bool.and_eq_true, beq_iff_eq, Option.isNone_iff_eq_none] at hp
  obtain ⟨⟨⟨⟨⟨⟨⟨⟨⟨h1, h2⟩, h3⟩, h4⟩, h5⟩, h6⟩, h7⟩, h8⟩, h9⟩, h10⟩ := hp
  exact ⟨s, h, a, hr, h1, h2, h5⟩

/-- The destructor keeps the rules: it makes nothing but `delete_block`, of blocks that are allocated, not the client's, and not
being read. -/
theorem C147_rules (hraw : 0 < g.raw) (hd : g.dflt.length = g.raw) (hr : Run k qid cfgs memory g s h a) (hc : s.cur = none) (he : Ending k qid memory g s h a t h' gone)
    {c : Cmd} {l : List Cmd} (ht : t.todo = c :: l) : ∃ e, c = .delete e ∧ t.bid e ∈ t.d.m.live ∧ a.held e = none ∧ Store.Allowed k qid t.d (.mgr (.delete (t.bid e))) := by
  obtain ⟨ids0, _, h2, h3, _, u, b, don, ids, S⟩ := ending_sim hraw hd hr hc he
  obtain ⟨_, _, _, x, hrun⟩ := quiet hraw hd hr hc
  have hinv := Swap.run_inv (env g.dflt) (env_fresh _) (env_fill _) hrun
  have hrefs : ∀ id, a.refs id = (s.c.blocks id).refs := fun id => (hinv.ok id).refs
  have hl := S.cmds
  rw [ht] at hl
  cases ids with
  | nil => cases hl
  | cons id ids =>
    rw [List.map_cons] at hl
    injection hl with hl1 hl2
    rw [S.split] at h2
    have hid : id ∉ don := fun hm => (List.nodup_append.1 h2).2.2 id hm id (List.mem_cons_self ..) rfl
    obtain ⟨i1, i2, i3⟩ := h3 id (by rw [S.split]; simp)
    obtain ⟨e, hx⟩ := Option.ne_none_iff_exists'.1 i3
    have hb := S.same id hid
    have hxu : (u.c.blocks id).ext = some e := by rw [hb]; exact hx
    obtain ⟨_, b2, _⟩ := C138_blocks hraw hd S.run S.cur
    obtain ⟨m1, m2, _, m4⟩ := b2 id e hxu
    refine ⟨e, by rw [hl1]; simp [del, hx], by rw [← S.d, ← S.bid]; exact m2, by rw [← S.held]; exact m4, ?_⟩
    obtain ⟨_, _, q3, _⟩ := quiet hraw hd S.run S.cur
    obtain ⟨fu, y, R⟩ := run_inv hraw hd S.run
    rw [← S.d, ← S.bid]
    refine ⟨m2, ?_⟩
    intro b' hb' hk r q hp hq hw hon
    injection hb' with hb'; subst hb'
    have := R.mi.rdb hk r q hp hq hw e m1 hon
    rw [q3] at this; cases this

/-- The first of two blocks has been returned. -/
example : ∃ s h a us t h' gone, RunIds .twoQ id [(8, false)] 2 g2 s h a us ∧ Ending .twoQ id 2 g2 s h a t h' gone ∧ s.cur = none ∧ t.todo = [.delete 2] ∧ t.bid 2 = Store.blk 0 2 := by
  obtain ⟨s, h, a, us, t, h', gone, h1, h2, h3⟩ := playEnd_run okEnd1'_run
  simp only [okEnd1', Bool.and_eq_true, beq_iff_eq, Option.isNone_iff_eq_none] at h3
  exact ⟨s, h, a, us, t, h', gone, h1, h2, h3.1.1, h3.1.2, h3.2⟩

/-- The destructor does not wait: each of its commands can be made at once, and makes one allocated block less. -/
theorem C147_end (hraw : 0 < g.raw) (hd : g.dflt.length = g.raw) (hr : Run k qid cfgs memory g s h a) (hc : s.cur = none) (he : Ending k qid memory g s h a t h' gone)
    {e : Nat} {l : List Cmd} (ht : t.todo = .delete e :: l) (r : Nat) (f : Nat → Nat) (o : Nat) :
    ∃ t', t.step k qid g (.cmd r f o) = .ok t' ∧ t'.todo = l ∧ t'.d.m.live = t.d.m.live.erase (t.bid e) := by
  obtain ⟨e', e1, hl, _⟩ := C147_rules hraw hd hr hc he ht
  cases e1
  obtain ⟨ids0, _, _, _, _, u, b, don, ids, S⟩ := ending_sim hraw hd hr hc he
  obtain ⟨fu, y, R⟩ := run_inv hraw hd S.run
  obtain ⟨lost, hm⟩ := Mgr.mreach_inv (Store.life_inv R.mi.life).mgr
  rw [S.d] at hm
  obtain ⟨m', h1, _⟩ := Mgr.deleteBlock_spec hm _ hl
  refine ⟨_, by simp only [Sys.step, ht, Sys.exec, Sys.via, Store.step]; rfl, rfl, ?_⟩
  simp only [Mgr.MSys.step, h1]

example : ∃ s h a us t h' gone, RunIds .twoQ id [(8, false)] 2 g2 s h a us ∧ Ending .twoQ id 2 g2 s h a t h' gone ∧ s.cur = none ∧ t.todo = .delete 2 :: [] := by
  obtain ⟨s, h, a, us, t, h', gone, h1, h2, h3⟩ := playEnd_run okEnd1'_run
  simp only [okEnd1', Bool.and_eq_true, beq_iff_eq, Option.isNone_iff_eq_none] at h3
  exact ⟨s, h, a, us, t, h', gone, h1, h2, h3.1.1, h3.1.2⟩

/-- At the end, and at any time before, no request uses the internal blocks, which the destructor deletes: the memory may be used again, for example
for another block scheduler of this size. -/
theorem C147_memory (hraw : 0 < g.raw) (hd : g.dflt.length = g.raw) (hr : Run k qid cfgs memory g s h a) (hc : s.cur = none) (he : Ending k qid memory g s h a t h' gone) :
    (∀ r q, Store.Pending qid t.d r → t.d.reqs r = some q → ∀ p, p < g.count memory → q.buf ≠ g.base + p) ∧ Run k qid cfgs memory g (Sys.init memory g t.d) h' {} := by
  obtain ⟨ids0, _, h2, h3, _, u, b, don, ids, S⟩ := ending_sim hraw hd hr hc he
  obtain ⟨_, q2, q3, _⟩ := quiet hraw hd S.run S.cur
  obtain ⟨fu, y, R⟩ := run_inv hraw hd S.run
  have hno : E2E.Unused qid g.base (g.base + g.count memory) t.d := by
    intro r q hp hq hb
    rw [← S.d] at hp hq
    rcases R.mi.buf r q hp hq hb.1 hb.2 with h | h
    · rw [q2] at h; cases h.2
    · rw [q3] at h; cases h
  refine ⟨fun r q hp hq p hlt e => hno r q hp hq ⟨by omega, by omega⟩, ?_⟩
  rw [← S.d]
  exact .start R.mi.life (by rw [S.d]; exact hno) (fun p hp => (R.mi.mem p hp).1)

example : ∃ s h a us t h' gone, RunIds .twoQ id [(8, false)] 2 g2 s h a us ∧ Ending .twoQ id 2 g2 s h a t h' gone ∧ s.cur = none ∧ gone = [Store.blk 0 0, Store.blk 0 2] ∧ g2.count 2 = 1 := by
  obtain ⟨s, h, a, us, t, h', gone, h1, h2, h3⟩ := playEnd_run okEnd1_run
  simp only [okEnd1, Bool.and_eq_true, beq_iff_eq, Option.isNone_iff_eq_none, List.isEmpty_iff] at h3
  exact ⟨s, h, a, us, t, h', gone, h1, h2, h3.1.1.1, h3.1.2, by decide⟩

/-- The client's external blocks (set aside, or extracted) survive the destructor, with their contents. -/
theorem C147_external (hraw : 0 < g.raw) (hd : g.dflt.length = g.raw) (hr : Run k qid cfgs memory g s h a) (hc : s.cur = none) (he : Ending k qid memory g s h a t h' gone)
    {e : Nat} (ho : e ∈ s.own) {v : List UInt8} (hv : a.held e = some v) : s.bid e ∉ gone ∧ s.bid e ∈ t.d.m.live ∧ Content qid t.d h' (s.bid e) v ∧
      ∃ d, (s.bid e).storage = .managed d ∧ Files.pread (t.d.files d) (s.bid e).off g.raw = v := by
  obtain ⟨ids0, _, h2, h3, _, u, b, don, ids, S⟩ := ending_sim hraw hd hr hc he
  obtain ⟨_, b2, _⟩ := C138_blocks hraw hd hr hc
  obtain ⟨fu, y, R⟩ := run_inv hraw hd hr
  have hne : ∀ id e', (s.c.blocks id).ext = some e' → e' ≠ e := by
    intro id e' hx hc
    subst hc
    have := (b2 id e' hx).2.2.2
    rw [hv] at this; cases this
  have hown : e ∈ u.own := by
    rw [S.own, S.sub]
    exact ⟨ho, fun id _ hx => hne id e hx rfl⟩
  have := C138_external hraw hd S.run S.cur hown (by rw [S.held]; exact hv)
  rw [S.bid, S.d, S.bid0] at this
  refine ⟨?_, this⟩
  rw [S.gone, List.mem_map]
  rintro ⟨id, hid, heq⟩
  obtain ⟨e', e1⟩ := Option.ne_none_iff_exists'.1 (h3 id (by rw [S.split]; exact List.mem_append.2 (.inl hid))).2.2
  rw [e1] at heq
  exact hne id e' e1 (R.mi.inj e' (b2 id e' e1).1 e ho heq)

/-- Block 1 was extracted; the client reads 3, 4 from it after the destructor. -/
example : ∃ s h a us t h' gone, RunIds .twoQ id [(8, false)] 2 g2 s h a us ∧ Ending .twoQ id 2 g2 s h a t h' gone ∧ s.cur = none ∧ t.todo = [] ∧ 2 ∈ s.own ∧ a.held 2 = some [3, 4] := by
  obtain ⟨s, h, a, us, t, h', gone, h1, h2, h3⟩ := playEnd_run okEnd2_run
  simp only [okEnd2, Bool.and_eq_true, beq_iff_eq, Option.isNone_iff_eq_none, List.isEmpty_iff, List.contains_iff_mem] at h3
  exact ⟨s, h, a, us, t, h', gone, h1, h2, h3.1.1.1.1, h3.1.1.1.2, h3.1.2, h3.2⟩

end Foxxll.SwapStore
