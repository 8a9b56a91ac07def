import Verif.Proofs.SwapStoreReady
import Verif.Proofs.BlockSchedulerCount
import Verif.Proofs.StreamStoreIn
/-
Invariant of the block scheduler on top of the store.
-/
namespace Foxxll.SwapStore
open Foxxll

variable {k : Queue.Kind} {qid : Nat → Nat} {cfgs : List (Nat × Bool)}

/-! ### The store -/

/-- A new block is new. -/
theorem new_fresh {m : Mgr.MSys} (hm : Mgr.MReach cfgs m) {f : Nat → Nat} {o raw : Nat} {mgr : Mgr.Manager} {b : Mgr.Bid} (hraw : 0 < raw)
    (hf : f o < m.mgr.disks.length) (h : m.mgr.newBlocks f o [⟨.null, 0, raw, raw⟩] = (mgr, [b], .ok ())) :
    (m.step (.new f o [⟨.null, 0, raw, raw⟩])).live = b :: m.live ∧ b ∉ m.live ∧ b.size = raw := by
  have hv : (Mgr.MOp.new f o [⟨.null, 0, raw, raw⟩]).Valid m := by
    refine ⟨?_, ?_⟩
    · intro i h1 h2
      simp at h2
      have : i = o := by omega
      rw [this]; exact hf
    · intro b hb
      simp only [List.mem_singleton] at hb
      subst hb
      exact ⟨hraw, .inr rfl⟩
  have hlive : (m.step (.new f o [⟨.null, 0, raw, raw⟩])).live = b :: m.live := by
    simp only [Mgr.MSys.step, h]; rfl
  have hr := Mgr.MReach.step hm hv
  obtain ⟨lost, hi⟩ := Mgr.mreach_inv hm
  obtain ⟨_, m', out', r, _, _, _, g1, _, g2, _⟩ := Mgr.newBlocks_spec hi f o _ hv
  rw [h] at g1
  injection g1 with _ g1
  injection g1 with g1 _
  subst g1
  refine ⟨hlive, ?_, by simpa using g2⟩
  intro hb
  obtain ⟨lost', hj⟩ := Mgr.mreach_inv hr
  obtain ⟨d, hd, hst⟩ := hj.man b (by rw [hlive]; simp)
  have hlt : d < (m.step (.new f o [⟨.null, 0, raw, raw⟩])).mgr.disks.length := by rw [hj.len]; exact hd
  have hp : (Mgr.onDisk d ((m.step (.new f o [⟨.null, 0, raw, raw⟩])).live ++ lost')).Pairwise Alloc.Block.Disjoint :=
    Alloc.disjoint_of_cov (fun x => (hj.disk d _ (List.getElem?_eq_getElem hlt)).inv.cov_le x)
  rw [hlive] at hp
  unfold Mgr.onDisk at hp
  rw [List.cons_append, List.filter_cons, if_pos (by simpa using hst), List.map_cons, List.pairwise_cons] at hp
  have hpos := (hj.size b (by rw [hlive]; simp)).1
  exact hp.1 b.block (List.mem_map.2 ⟨b, by simp [hb, hst], rfl⟩) b.off ⟨⟨Nat.le_refl _, by show b.off < b.off + b.size; omega⟩, ⟨Nat.le_refl _, by show b.off < b.off + b.size; omega⟩⟩

/-- Two different live blocks cannot be meant by the same request. -/
theorem on_eq {m : Mgr.MSys} (hm : Mgr.MReach cfgs m) {b c : Mgr.Bid} (hb : b ∈ m.live) (hc : c ∈ m.live) {q : Store.Req} (h1 : q.On b) (h2 : q.On c) : b = c := by
  by_cases e : b = c
  · exact e
  · have := Store.live_apart hm hb hc e (h1.1.trans h2.1.symm)
    obtain ⟨_, _, hp, _⟩ := Store.live_inside hm hb
    have e1 := h1.2.1; have e2 := h1.2.2; have e3 := h2.2.1; have e4 := h2.2.2
    unfold Store.Apart at this
    omega

theorem entry_req {d : Store.St} {h : Store.Hist} (J : Store.Inv k qid cfgs d h) {b : Mgr.Bid} {dk : Nat} (hb : b ∈ d.m.live) (hst : b.storage = .managed dk)
    {e : Store.Wrote} (he : e ∈ h.of b) : ∃ q, d.reqs e.r = some q ∧ q.On b ∧ q.disk = dk := by
  obtain ⟨q, h1, _, h3, h4, h5, _⟩ := (J.trk _ hb dk hst).req e he
  exact ⟨q, h1, ⟨by rw [h3]; exact hst, h4.symm, h5.symm⟩, h3⟩

theorem last_keep {d d' : Store.St} {h h' : Store.Hist} {b : Mgr.Bid} {dk : Nat} {op : Store.Op} (J : Store.Inv k qid cfgs d h) (hb : b ∈ d.m.live)
    (hst : b.storage = .managed dk) (E : Store.Eff qid d d' op) (hc : ∀ r q, op = .cancel r → d.reqs r = some q → ¬ q.On b) (hof : h'.of b = h.of b) :
    Store.last (d'.qs (qid dk)).cancelled (h'.of b) = Store.last (d.qs (qid dk)).cancelled (h.of b) := by
  rw [hof]
  refine E2E.last_congr ?_
  intro e' he'
  refine ⟨?_, fun h => E.can _ _ h⟩
  intro h
  rcases E.can' _ _ h with h | h
  · exact h
  · obtain ⟨q', hq', hon, _⟩ := entry_req J hb hst he'
    exact absurd hon (hc _ _ h hq')

/-- The last write of a block wrote `v`, and is waited for (`out`) or well done. -/
def Val (qid : Nat → Nat) (d : Store.St) (h : Store.Hist) (out : List Nat) (b : Mgr.Bid) (v : Data) : Prop :=
  ∃ dk w, b.storage = .managed dk ∧ Store.last (d.qs (qid dk)).cancelled (h.of b) = some w ∧ w.data = v ∧
    (w.r ∈ out ∨ (¬ Store.Pending qid d w.r ∧ w.r ∉ d.failed))

theorem done_keep {d d' : Store.St} {r : Nat} {q : Store.Req} {op : Store.Op} (E : Store.Eff qid d d' op) (hq : d.reqs r = some q)
    (h : ¬ Store.Pending qid d r ∧ r ∉ d.failed) : ¬ Store.Pending qid d' r ∧ r ∉ d'.failed := by
  refine ⟨E.finished hq h.1, ?_⟩
  intro hf
  rcases E.fail _ hf with h' | ⟨h', _⟩
  · exact h.2 h'
  · exact h.1 h'

theorem Val.keep {d d' : Store.St} {h h' : Store.Hist} {out out' : List Nat} {b : Mgr.Bid} {v : Data} {op : Store.Op} (hv : Val qid d h out b v)
    (J : Store.Inv k qid cfgs d h) (hb : b ∈ d.m.live) (E : Store.Eff qid d d' op)
    (hc : ∀ r q, op = .cancel r → d.reqs r = some q → ¬ q.On b) (hof : h'.of b = h.of b) (ho : ∀ r ∈ out, r ∈ out') : Val qid d' h' out' b v := by
  obtain ⟨dk, w, h1, h2, h3, h4⟩ := hv
  obtain ⟨q, hq, _⟩ := entry_req J hb h1 (List.mem_of_find?_eq_some h2)
  refine ⟨dk, w, h1, ?_, h3, ?_⟩
  · rw [last_keep J hb h1 E hc hof]; exact h2
  · rcases h4 with h4 | h4
    · exact .inl (ho _ h4)
    · exact .inr (done_keep E hq h4)

/-- Cancellations. -/
theorem foreign_cancel {bs : List Mgr.Bid} {lo hi : Nat} {d : Store.St} {op : Store.Op} (hf : E2E.Foreign bs lo hi d op) {b : Mgr.Bid} (hb : b ∈ bs) :
    ∀ r q, op = .cancel r → d.reqs r = some q → ¬ q.On b := by
  intro r q e hq
  subst e
  exact hf q hq b hb

/-! ### Invariant -/

structure MI (k : Queue.Kind) (qid : Nat → Nat) (cfgs : List (Nat × Bool)) (max : Nat) (g : Cfg) (s : Sys) (h : Store.Hist) (fu : Nat → Prop)
    (x : (Nat → Data) × (Nat → Data)) : Prop where
  life : Store.Life k qid cfgs (Store.Orderly k) s.d h
  inj : ∀ e ∈ s.own, ∀ e' ∈ s.own, s.bid e = s.bid e' → e = e'
  live : ∀ e ∈ s.own, s.bid e ∈ s.d.m.live ∧ (s.bid e).size = g.raw
  val : ∀ e ∈ s.own, fu e → Val qid s.d h s.out (s.bid e) (x.2 e)
  rdb : k = .twoQ → ∀ r q, Store.Pending qid s.d r → s.d.reqs r = some q → q.write = false → ∀ e ∈ s.own, q.On (s.bid e) → s.rd = some r
  buf : ∀ r q, Store.Pending qid s.d r → s.d.reqs r = some q → g.base ≤ q.buf → q.buf < g.base + max → (q.write = true ∧ r ∈ s.out) ∨ s.rd = some r
  mem : ∀ p, p < max → (s.d.mem (g.base + p)).length = g.raw ∧
    ((∀ r q, s.rd = some r → s.d.reqs r = some q → q.buf ≠ g.base + p) → s.d.mem (g.base + p) = x.1 p)
  rd : ∀ r, s.rd = some r → ∃ p e l dk, s.todo = .read p e :: l ∧ e ∈ s.own ∧ fu e ∧ p < max ∧ s.out = [] ∧ (s.bid e).storage = .managed dk ∧
    s.d.reqs r = some ⟨dk, false, (s.bid e).off, g.raw, g.base + p⟩ ∧ r ∉ (s.d.qs (qid dk)).cancelled ∧
    (Store.Pending qid s.d r → ∃ w, Store.last (s.d.qs (qid dk)).cancelled (h.seen r) = some w ∧ w.r ∉ s.d.failed ∧ ¬ Store.Pending qid s.d w.r ∧ w.data = x.2 e) ∧
    (¬ Store.Pending qid s.d r → r ∉ s.d.failed → s.d.mem (g.base + p) = x.2 e)

variable {max : Nat} {g : Cfg} {s : Sys} {h : Store.Hist} {fu : Nat → Prop} {x : (Nat → Data) × (Nat → Data)}

/-- Tables and the rest of the call do not matter while nothing is read. -/
theorem MI.tables (I : MI k qid cfgs max g s h fu x) (hr : s.rd = none) (c : Ctl) (l : List Cmd) (cur : Option (Call × Ans)) :
    MI k qid cfgs max g { s with c := c, todo := l, cur := cur } h fu x :=
  ⟨I.life, I.inj, I.live, I.val, I.rdb, I.buf, I.mem, fun r h => by rw [show s.rd = some r from h] at hr; cases hr⟩

/-- A step of the workers or of other clients. -/
theorem MI.env (I : MI k qid cfgs max g s h fu x) {op : Store.Op} (ha : Store.Allowed k qid s.d op) (ho : Store.Orderly k op)
    (hf : E2E.Foreign (s.own.map s.bid) g.base (g.base + max) s.d op) {d' : Store.St} (hs : Store.step k qid s.d op = some d') :
    MI k qid cfgs max g { s with d := d' } (h.next s.d op) fu x := by
  have J := Store.life_inv I.life
  have E := Store.step_eff J ha hs
  have hmem : ∀ e ∈ s.own, s.bid e ∈ s.own.map s.bid := fun e he => List.mem_map_of_mem he
  refine ⟨.next op I.life ha ho hs, I.inj, ?_, ?_, ?_, ?_, ?_, ?_⟩
  · intro e he
    refine ⟨?_, (I.live e he).2⟩
    rcases E.live _ (I.live e he).1 with h | h
    · exact h
    · subst h
      exact absurd (hmem e he) hf
  · intro e he hu
    exact (I.val e he hu).keep J (I.live e he).1 E (foreign_cancel hf (hmem e he)) (E2E.of_foreign hf (hmem e he)) (fun _ h => h)
  · intro hk r q hp hq hw e he hon
    rcases E.pending hq hp with ⟨h1, h2⟩ | ⟨w, b', buf, h1, h2, h3⟩
    · exact I.rdb hk r q h2 h1 hw e he hon
    · subst h1
      have hne : b' ≠ s.bid e := fun e' => hf.1 (e' ▸ hmem e he)
      exact absurd (on_eq J.mgr ha.2.1 (I.live e he).1 (q := q) ⟨h2, by rw [h3], by rw [h3]⟩ hon) hne
  · intro r q hp hq h1 h2
    rcases E.pending hq hp with ⟨h3, h4⟩ | ⟨w, b', buf, h3, h4, h5⟩
    · exact I.buf r q h4 h3 h1 h2
    · subst h3
      rw [h5] at h1 h2
      exact absurd ⟨h1, h2⟩ hf.2
  · intro p hp
    obtain ⟨h1, h2⟩ := I.mem p hp
    show (d'.mem (g.base + p)).length = _ ∧ (_ → d'.mem (g.base + p) = _)
    rcases E.mem (g.base + p) with h | ⟨data, h, _⟩ | ⟨hl, i, r, q, os, _, _, h5, h6, _, h8, h9⟩
    · rw [h]
      refine ⟨h1, fun hr => h2 ?_⟩
      intro r q hr' hq
      exact hr r q hr' (E.req _ _ hq)
    · subst h
      exact absurd ⟨Nat.le_add_right _ _, Nat.add_lt_add_left hp _⟩ hf
    · refine ⟨by rw [hl]; exact h1, ?_⟩
      intro hr
      rcases I.buf r q h6 h5 (by omega) (by omega) with h | h
      · rw [h8] at h; cases h.1
      · exact absurd h9 (hr r q h (E.req _ _ h5))
  · intro r hr
    obtain ⟨p, e, l, dk, h1, h2, hfu, h3, hout, h4, h5, h6, h7, h8⟩ := I.rd r hr
    have hon : Store.Req.On ⟨dk, false, (s.bid e).off, g.raw, g.base + p⟩ (s.bid e) := ⟨h4, rfl, (I.live e h2).2⟩
    have hcan := foreign_cancel hf (hmem e h2)
    have hnc : r ∉ (d'.qs (qid dk)).cancelled := by
      intro hc
      rcases E.can' _ _ hc with h | h
      · exact h6 h
      · exact hcan r _ h h5 hon
    refine ⟨p, e, l, dk, h1, h2, hfu, h3, hout, h4, E.req _ _ h5, hnc, ?_, ?_⟩
    · intro hp
      have hp0 : Store.Pending qid s.d r := by
        by_cases h : Store.Pending qid s.d r
        · exact h
        · exact absurd hp (E.finished h5 h)
      obtain ⟨w, e1, e2, e3, e4⟩ := h7 hp0
      have hT := (J.rd r _ hp0 h5 rfl).1
      obtain ⟨q, hq, _⟩ := hT.req w (List.mem_of_find?_eq_some e1)
      obtain ⟨k1, k2⟩ := done_keep E hq ⟨e3, e2⟩
      refine ⟨w, ?_, k2, k1, e4⟩
      rw [E2E.seen_keep h5 ha, ← e1]
      refine E2E.last_congr ?_
      intro e' he'
      refine ⟨?_, fun h => E.can _ _ h⟩
      intro h
      rcases E.can' _ _ h with h | h
      · exact h
      · obtain ⟨q', hq', _, g3, g4, g5, _⟩ := hT.req e' he'
        exact absurd ⟨by rw [g3]; exact h4, g4.symm, by rw [g5]; exact (I.live e h2).2⟩ (hcan _ q' h hq')
    · intro hnp hnf
      have hnf0 : r ∉ s.d.failed := fun h => hnf (E.fail' r h)
      by_cases hp : Store.Pending qid s.d r
      · obtain ⟨w, e1, e2, e3, e4⟩ := h7 hp
        obtain ⟨q0, g1, g2, g3⟩ := hp
        rw [h5] at g1; injection g1 with g1; subst g1
        have hsv : r ∈ (d'.qs (qid dk)).served := by
          by_cases hsv : r ∈ (d'.qs (qid dk)).served
          · exact hsv
          · exact absurd ⟨_, E.req _ _ h5, hsv, hnc⟩ hnp
        rcases E.srv' _ _ hsv with h | ⟨os, e5, e6⟩
        · exact absurd h g2
        · subst e5
          have := Store.C98_partial I.life e6 h5 rfl hs hnf e1 e2
          show d'.mem (g.base + p) = _
          rw [← e4, ← this]
      · show d'.mem (g.base + p) = _
        rcases E.mem (g.base + p) with h | ⟨data, h, _⟩ | ⟨_, i, r', q, os, _, _, g3, g4, _, g6, g7⟩
        · rw [h]; exact h8 hp hnf0
        · subst h
          exact absurd ⟨Nat.le_add_right _ _, Nat.add_lt_add_left h3 _⟩ hf
        · rcases I.buf r' q g4 g3 (by omega) (by omega) with h | h
          · rw [g6] at h; cases h.1
          · rw [hr] at h; injection h with h; subst h
            exact absurd g4 hp

end Foxxll.SwapStore
