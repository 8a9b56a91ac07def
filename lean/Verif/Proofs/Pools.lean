/-
Helper lemmas for the pools.  The lists of the two pools and of the client are collected into
idle blocks and entries (blocks with a request); the invariant is stated and preserved on this
view.
-/
import Verif.Model.Pools
set_option linter.unusedSimpArgs false
set_option linter.unusedVariables false

namespace Foxxll.Pool

variable {V : Type} {P : Prop}

/-- A block together with a request.  `rd`, `bid`: what is known about the request while it is
pending; `want`: the content the block must have when the request is finished. -/
structure Ent (V : Type) where
  blk : Nat
  req : Nat
  rd : Option Bool
  bid : Option Nat
  want : Option V

structure Core (V : Type) where
  mem : Nat → V
  disk : Nat → V
  q : List Req
  nextReq : Nat
  nextBlk : Nat
  last : Nat → V
  idle : List Nat
  ents : List (Ent V)

/-- Writes of `b` under way. -/
def writes (q : List Req) (b : Nat) : List Req := q.filter (fun x => x.bid == b && !x.rd)

/-- What `b` will contain when all pending writes are done. -/
def eff (mem disk : Nat → V) (q : List Req) (b : Nat) : V :=
  match (writes q b).getLast? with
  | some x => mem x.blk
  | none => disk b

def Reading (q : List Req) (r : Nat) : Prop := ∃ x ∈ q, x.id = r ∧ x.rd = true

structure Good (c : Core V) (e : Ent V) (b : Nat) (v : V) : Prop where
  fin : ¬ Reading c.q e.req → c.mem e.blk = v
  rd : Reading c.q e.req → v = c.last b ∧ ∀ x ∈ c.q, x.bid = b → x.rd = false → x.id < e.req

/-- `P`: the queue keeps the order; then also the contents are right. -/
structure CInv (P : Prop) (c : Core V) : Prop where
  nd : (c.idle ++ c.ents.map (·.blk)).Nodup
  lt : ∀ x ∈ c.idle ++ c.ents.map (·.blk), x < c.nextBlk
  ids : c.q.Pairwise (fun x y => x.id < y.id)
  idlt : ∀ x ∈ c.q, x.id < c.nextReq
  reqlt : ∀ e ∈ c.ents, e.req < c.nextReq
  infl : ∀ x ∈ c.q, ∃ e ∈ c.ents, e.blk = x.blk ∧ e.req = x.id
  fact : ∀ e ∈ c.ents, ∀ x ∈ c.q, x.id = e.req →
    x.blk = e.blk ∧ (∀ r, e.rd = some r → x.rd = r) ∧ (∀ b, e.bid = some b → x.bid = b)
  val : P → ∀ b, eff c.mem c.disk c.q b = c.last b
  good : P → ∀ e ∈ c.ents, ∀ b v, e.bid = some b → e.want = some v → Good c e b v

theorem pairwise_id_inj {q : List Req} (h : q.Pairwise (fun x y => x.id < y.id)) {x y : Req} (hx : x ∈ q) (hy : y ∈ q)
    (he : x.id = y.id) : x = y := by
  induction q with
  | nil => simp at hx
  | cons a q ih =>
    rw [List.pairwise_cons] at h
    rcases List.mem_cons.1 hx with hx1 | hx1 <;> rcases List.mem_cons.1 hy with hy1 | hy1
    · rw [hx1, hy1]
    · have := h.1 y hy1; rw [← hx1] at this; omega
    · have := h.1 x hx1; rw [← hy1] at this; omega
    · exact ih h.2 hx1 hy1

theorem blk_inj {l : List (Ent V)} (h : (l.map (·.blk)).Nodup) {e f : Ent V} (he : e ∈ l) (hf : f ∈ l)
    (heq : e.blk = f.blk) : e = f := by
  induction l with
  | nil => simp at he
  | cons a l ih =>
    simp only [List.map_cons, List.nodup_cons, List.mem_map, not_exists, not_and] at h
    rcases List.mem_cons.1 he with he1 | he1 <;> rcases List.mem_cons.1 hf with hf1 | hf1
    · rw [he1, hf1]
    · exact absurd (by rw [← heq, he1]) (h.1 f hf1)
    · exact absurd (by rw [heq, hf1]) (h.1 e he1)
    · exact ih h.2 he1 hf1

theorem CInv.ents_nd {c : Core V} (h : CInv P c) : (c.ents.map (·.blk)).Nodup := (List.nodup_append.1 h.nd).2.1

/-- Idle blocks are not used by any request. -/
theorem CInv.idle_free {c : Core V} (h : CInv P c) {b : Nat} (hb : b ∈ c.idle) :
    (∀ x ∈ c.q, x.blk ≠ b) ∧ ∀ e ∈ c.ents, e.blk ≠ b := by
  have h2 : ∀ e ∈ c.ents, e.blk ≠ b := by
    intro e he heq
    exact (List.nodup_append.1 h.nd).2.2 b hb e.blk (List.mem_map_of_mem he) heq.symm
  refine ⟨?_, h2⟩
  intro x hx heq
  obtain ⟨e, he, h1, _⟩ := h.infl x hx
  exact h2 e he (h1.trans heq)

/-- Rearranging the blocks and forgetting knowledge about entries. -/
theorem CInv.rearrange {c : Core V} (h : CInv P c) {idle : List Nat} {ents : List (Ent V)} {nb : Nat}
    (nd : (idle ++ ents.map (·.blk)).Nodup) (lt : ∀ x ∈ idle ++ ents.map (·.blk), x < nb)
    (hfrom : ∀ e ∈ ents, ∃ e0 ∈ c.ents, e.blk = e0.blk ∧ e.req = e0.req ∧ (e.rd = e0.rd ∨ e.rd = none) ∧
      e.bid = e0.bid ∧ (e.want = e0.want ∨ e.want = none))
    (hto : ∀ e0 ∈ c.ents, (∃ e ∈ ents, e.blk = e0.blk ∧ e.req = e0.req) ∨ ∀ x ∈ c.q, x.id ≠ e0.req) :
    CInv P { c with idle := idle, ents := ents, nextBlk := nb } := by
  refine ⟨nd, lt, h.ids, h.idlt, ?_, ?_, ?_, h.val, ?_⟩
  · intro e he
    obtain ⟨e0, h0, _, h2, _⟩ := hfrom e he
    rw [h2]; exact h.reqlt e0 h0
  · intro x hx
    obtain ⟨e0, h0, h1, h2⟩ := h.infl x hx
    rcases hto e0 h0 with ⟨e, he, h3, h4⟩ | hn
    · exact ⟨e, he, h3.trans h1, h4.trans h2⟩
    · exact absurd h2.symm (hn x hx)
  · intro e he x hx hid
    obtain ⟨e0, h0, h1, h2, h3, h4, _⟩ := hfrom e he
    obtain ⟨f1, f2, f3⟩ := h.fact e0 h0 x hx (hid.trans h2)
    refine ⟨f1.trans h1.symm, ?_, ?_⟩
    · intro r hr
      rcases h3 with h3 | h3
      · exact f2 r (h3.symm.trans hr)
      · rw [h3] at hr; exact absurd hr (by simp)
    · intro b hb
      exact f3 b (h4.symm.trans hb)
  · intro hP e he b v hb hv
    obtain ⟨e0, h0, h1, h2, _, h4, h5⟩ := hfrom e he
    rcases h5 with h5 | h5
    · have := h.good hP e0 h0 b v (h4.symm.trans hb) (h5.symm.trans hv)
      exact ⟨fun hr => by rw [h1]; exact this.fin (by rw [← h2]; exact hr), fun hr => by rw [h2] at hr ⊢; exact this.rd hr⟩
    · rw [h5] at hv; exact absurd hv (by simp)

theorem writes_append (q : List Req) (x : Req) (b : Nat) :
    writes (q ++ [x]) b = if x.bid = b ∧ x.rd = false then writes q b ++ [x] else writes q b := by
  unfold writes
  rw [List.filter_append]
  by_cases h : x.bid = b ∧ x.rd = false
  · simp [h]
  · rw [if_neg h]
    have : (x.bid == b && !x.rd) = false := by
      rw [Bool.eq_false_iff]
      intro hh
      simp at hh
      exact h ⟨hh.1, hh.2⟩
    simp [List.filter_cons, this]

/-- A read request for an idle block. -/
theorem CInv.submitRead {c : Core V} (h : CInv P c) {blk b : Nat} {idle : List Nat} {ents : List (Ent V)} {w : Option V}
    {r : Option Bool} (hr : r = some true ∨ r = none) (hw : w = some (c.last b) ∨ w = none)
    (hp : (idle ++ blk :: c.ents.map (·.blk)).Perm (c.idle ++ c.ents.map (·.blk)))
    (he : ents.Perm (⟨blk, c.nextReq, r, some b, w⟩ :: c.ents)) :
    CInv P { c with idle := idle, ents := ents, q := c.q ++ [⟨c.nextReq, true, b, blk⟩], nextReq := c.nextReq + 1 } := by
  have hpp : (idle ++ ents.map (·.blk)).Perm (c.idle ++ c.ents.map (·.blk)) := by
    refine List.Perm.trans ?_ hp
    exact List.Perm.append_left _ (he.map _)
  have hmem : ∀ e ∈ ents, e = ⟨blk, c.nextReq, r, some b, w⟩ ∨ e ∈ c.ents := fun e h => List.mem_cons.1 (he.mem_iff.1 h)
  have hold : ∀ e ∈ c.ents, ∀ x ∈ c.q ++ [⟨c.nextReq, true, b, blk⟩], x.id = e.req → x ∈ c.q := by
    intro e h1 x hx hid
    rcases List.mem_append.1 hx with hx | hx
    · exact hx
    · rw [List.mem_singleton] at hx
      subst hx
      have := h.reqlt e h1
      simp only at hid
      omega
  have hreading : ∀ e ∈ c.ents, Reading (c.q ++ [⟨c.nextReq, true, b, blk⟩]) e.req ↔ Reading c.q e.req := by
    intro e h1
    constructor
    · rintro ⟨x, hx, hid, hrd⟩; exact ⟨x, hold e h1 x hx hid, hid, hrd⟩
    · rintro ⟨x, hx, hid, hrd⟩; exact ⟨x, List.mem_append_left _ hx, hid, hrd⟩
  refine ⟨hpp.nodup_iff.2 h.nd, fun x hx => h.lt x (hpp.mem_iff.1 hx), ?_, ?_, ?_, ?_, ?_, ?_, ?_⟩
  · rw [List.pairwise_append]
    refine ⟨h.ids, by simp, ?_⟩
    intro x hx y hy
    rw [List.mem_singleton] at hy
    subst hy
    exact h.idlt x hx
  · intro x hx
    rcases List.mem_append.1 hx with hx | hx
    · have := h.idlt x hx; simp only; omega
    · rw [List.mem_singleton] at hx; subst hx; simp
  · intro e h1
    rcases hmem e h1 with rfl | h1
    · simp
    · have := h.reqlt e h1; simp only; omega
  · intro x hx
    rcases List.mem_append.1 hx with hx | hx
    · obtain ⟨e, h1, h2⟩ := h.infl x hx
      exact ⟨e, he.mem_iff.2 (List.mem_cons_of_mem _ h1), h2⟩
    · rw [List.mem_singleton] at hx
      subst hx
      exact ⟨_, he.mem_iff.2 List.mem_cons_self, rfl, rfl⟩
  · intro e h1 x hx hid
    rcases hmem e h1 with rfl | h1
    · have : x = ⟨c.nextReq, true, b, blk⟩ := by
        rcases List.mem_append.1 hx with hx | hx
        · have := h.idlt x hx; simp only at hid; omega
        · exact List.mem_singleton.1 hx
      subst this
      refine ⟨rfl, ?_, by simp⟩
      intro r' hr'
      rcases hr with hr | hr
      · subst hr; simpa using hr'
      · subst hr; simp at hr'
    · exact h.fact e h1 x (hold e h1 x hx hid) hid
  · intro hP b'
    simp only [eff, writes_append]
    simp only [Bool.true_eq_false, and_false, if_false]
    exact h.val hP b'
  · intro hP e h1 b' v hb hv
    rcases hmem e h1 with rfl | h1
    · have hread : Reading (c.q ++ [⟨c.nextReq, true, b, blk⟩]) c.nextReq :=
        ⟨⟨c.nextReq, true, b, blk⟩, by simp, rfl, rfl⟩
      refine ⟨fun hn => absurd hread hn, fun _ => ?_⟩
      simp only [Option.some.injEq] at hb
      subst hb
      refine ⟨?_, ?_⟩
      · rcases hw with hw | hw
        · subst hw; simpa using hv.symm
        · subst hw; simp at hv
      · intro x hx _ hrd
        rcases List.mem_append.1 hx with hx | hx
        · exact h.idlt x hx
        · rw [List.mem_singleton] at hx; subst hx; simp at hrd
    · have := h.good hP e h1 b' v hb hv
      refine ⟨fun hn => this.fin (fun hr => hn ((hreading e h1).2 hr)), fun hr => ?_⟩
      obtain ⟨g1, g2⟩ := this.rd ((hreading e h1).1 hr)
      refine ⟨g1, ?_⟩
      intro x hx hxb hrd
      rcases List.mem_append.1 hx with hx | hx
      · exact g2 x hx hxb hrd
      · rw [List.mem_singleton] at hx; subst hx; simp at hrd

/-- A write request for an idle block, after some obsolete writes of the same identifier were
cancelled. -/
theorem CInv.submitWrite {c : Core V} (h : CInv P c) {blk b : Nat} {idle : List Nat} {ents0 ents : List (Ent V)}
    {dead : Req → Bool} (hdead : ∀ x ∈ c.q, dead x = true → x.bid = b ∧ x.rd = false)
    (hp : (idle ++ blk :: c.ents.map (·.blk)).Perm (c.idle ++ c.ents.map (·.blk)))
    (hblk : ents0.map (·.blk) = c.ents.map (·.blk))
    (hfrom : ∀ e ∈ ents0, ∃ e0 ∈ c.ents, e.blk = e0.blk ∧ e.req = e0.req ∧ e.rd = e0.rd ∧
      ((e.bid = e0.bid ∧ e.want = e0.want) ∨ e.bid = none ∨ (e.bid = e0.bid ∧ e.want = none)))
    (hto : ∀ e0 ∈ c.ents, ∃ e ∈ ents0, e.blk = e0.blk ∧ e.req = e0.req)
    (hrd : ∀ e ∈ ents0, e.bid = some b → e.want ≠ none → ¬ Reading c.q e.req)
    (he : ents.Perm (⟨blk, c.nextReq, some false, some b, some (c.mem blk)⟩ :: ents0)) :
    CInv P { c with idle := idle, ents := ents, q := c.q.filter (fun x => !dead x) ++ [⟨c.nextReq, false, b, blk⟩],
                    nextReq := c.nextReq + 1, last := upd c.last b (c.mem blk) } := by
  have hpp : (idle ++ ents.map (·.blk)).Perm (c.idle ++ c.ents.map (·.blk)) := by
    refine List.Perm.trans ?_ hp
    refine List.Perm.append_left _ ((he.map _).trans ?_)
    simp [hblk]
  have hmem : ∀ e ∈ ents, e = ⟨blk, c.nextReq, some false, some b, some (c.mem blk)⟩ ∨ e ∈ ents0 :=
    fun e h => List.mem_cons.1 (he.mem_iff.1 h)
  have hq : ∀ x ∈ c.q.filter (fun x => !dead x), x ∈ c.q := fun x hx => (List.mem_filter.1 hx).1
  have hlt0 : ∀ e ∈ ents0, e.req < c.nextReq := by
    intro e h1
    obtain ⟨e0, h0, _, h2, _⟩ := hfrom e h1
    rw [h2]; exact h.reqlt e0 h0
  have hold : ∀ e ∈ ents0, ∀ x ∈ c.q.filter (fun x => !dead x) ++ [⟨c.nextReq, false, b, blk⟩], x.id = e.req → x ∈ c.q := by
    intro e h1 x hx hid
    rcases List.mem_append.1 hx with hx | hx
    · exact hq x hx
    · rw [List.mem_singleton] at hx
      subst hx
      have := hlt0 e h1
      simp only at hid
      omega
  have hreading : ∀ e ∈ ents0, Reading (c.q.filter (fun x => !dead x) ++ [⟨c.nextReq, false, b, blk⟩]) e.req ↔ Reading c.q e.req := by
    intro e h1
    constructor
    · rintro ⟨x, hx, hid, hr⟩; exact ⟨x, hold e h1 x hx hid, hid, hr⟩
    · rintro ⟨x, hx, hid, hr⟩
      refine ⟨x, List.mem_append_left _ (List.mem_filter.2 ⟨hx, ?_⟩), hid, hr⟩
      cases hd : dead x with
      | false => rfl
      | true => have := (hdead x hx hd).2; rw [hr] at this; exact absurd this (by simp)
  refine ⟨hpp.nodup_iff.2 h.nd, fun x hx => h.lt x (hpp.mem_iff.1 hx), ?_, ?_, ?_, ?_, ?_, ?_, ?_⟩
  · rw [List.pairwise_append]
    refine ⟨h.ids.sublist (List.filter_sublist ..), by simp, ?_⟩
    intro x hx y hy
    rw [List.mem_singleton] at hy
    subst hy
    exact h.idlt x (hq x hx)
  · intro x hx
    rcases List.mem_append.1 hx with hx | hx
    · have := h.idlt x (hq x hx); simp only; omega
    · rw [List.mem_singleton] at hx; subst hx; simp
  · intro e h1
    rcases hmem e h1 with rfl | h1
    · simp
    · have := hlt0 e h1; simp only; omega
  · intro x hx
    rcases List.mem_append.1 hx with hx | hx
    · obtain ⟨e0, h1, h2, h3⟩ := h.infl x (hq x hx)
      obtain ⟨e, h4, h5, h6⟩ := hto e0 h1
      exact ⟨e, he.mem_iff.2 (List.mem_cons_of_mem _ h4), h5.trans h2, h6.trans h3⟩
    · rw [List.mem_singleton] at hx
      subst hx
      exact ⟨_, he.mem_iff.2 List.mem_cons_self, rfl, rfl⟩
  · intro e h1 x hx hid
    rcases hmem e h1 with rfl | h1
    · have : x = ⟨c.nextReq, false, b, blk⟩ := by
        rcases List.mem_append.1 hx with hx | hx
        · have := h.idlt x (hq x hx); simp only at hid; omega
        · exact List.mem_singleton.1 hx
      subst this
      exact ⟨rfl, by simp, by simp⟩
    · obtain ⟨e0, h0, g1, g2, g3, g4⟩ := hfrom e h1
      obtain ⟨f1, f2, f3⟩ := h.fact e0 h0 x (hold e h1 x hx hid) (hid.trans g2)
      refine ⟨f1.trans g1.symm, fun r hr => f2 r (g3.symm.trans hr), ?_⟩
      intro b' hb'
      rcases g4 with g4 | g4 | g4
      · exact f3 b' (g4.1.symm.trans hb')
      · rw [g4] at hb'; exact absurd hb' (by simp)
      · exact f3 b' (g4.1.symm.trans hb')
  · intro hP b'
    simp only [eff, writes_append]
    by_cases hb : b = b'
    · subst hb
      simp [upd]
    · simp only [hb, false_and, if_false, upd]
      rw [if_neg (fun h => hb h.symm), ← h.val hP b']
      have : writes (c.q.filter (fun x => !dead x)) b' = writes c.q b' := by
        unfold writes
        rw [List.filter_filter]
        apply List.filter_congr
        intro x hx
        cases hd : dead x with
        | false => simp
        | true =>
          have := (hdead x hx hd).1
          simp [this, hb]
      rw [this]
      rfl
  · intro hP e h1 b' v hb hv
    rcases hmem e h1 with rfl | h1
    · have hread : ¬ Reading (c.q.filter (fun x => !dead x) ++ [⟨c.nextReq, false, b, blk⟩]) c.nextReq := by
        rintro ⟨x, hx, hid, hr⟩
        rcases List.mem_append.1 hx with hx | hx
        · have := h.idlt x (hq x hx); omega
        · rw [List.mem_singleton] at hx; subst hx; simp at hr
      refine ⟨fun _ => ?_, fun hr => absurd hr hread⟩
      simpa using hv
    · obtain ⟨e0, h0, g1, g2, g3, g4⟩ := hfrom e h1
      have hsame : e.bid = e0.bid ∧ e.want = e0.want := by
        rcases g4 with g4 | g4 | g4
        · exact g4
        · rw [g4] at hb; exact absurd hb (by simp)
        · rw [g4.2] at hv; exact absurd hv (by simp)
      have := h.good hP e0 h0 b' v (hsame.1.symm.trans hb) (hsame.2.symm.trans hv)
      refine ⟨fun hn => ?_, fun hr => ?_⟩
      · show c.mem e.blk = v
        rw [g1]
        exact this.fin (fun hr => hn ((hreading e h1).2 (by rw [g2]; exact hr)))
      · have hr' := (hreading e h1).1 hr
        have hbb : b' ≠ b := fun hbb => hrd e h1 (hbb ▸ hb) (by rw [hv]; simp) hr'
        obtain ⟨k1, k2⟩ := this.rd (by rw [← g2]; exact hr')
        refine ⟨by simp [upd, hbb, k1], ?_⟩
        intro x hx hxb hrd'
        rw [g2]
        rcases List.mem_append.1 hx with hx | hx
        · exact k2 x (hq x hx) hxb hrd'
        · rw [List.mem_singleton] at hx; subst hx; exact absurd hxb.symm hbb

/-- Cancelling a read nobody waits for any more. -/
theorem CInv.cancelRead {c : Core V} (h : CInv P c) {r : Nat} (hrd : ∀ x ∈ c.q, x.id = r → x.rd = true)
    (hw : ∀ e ∈ c.ents, ∀ x ∈ c.q, x.id = r → e.req = r → e.want = none) :
    CInv P { c with q := c.q.filter (fun x => x.id != r) } := by
  have hq : ∀ x ∈ c.q.filter (fun x => x.id != r), x ∈ c.q := fun x hx => (List.mem_filter.1 hx).1
  refine ⟨h.nd, h.lt, h.ids.sublist (List.filter_sublist ..), fun x hx => h.idlt x (hq x hx), h.reqlt,
    fun x hx => h.infl x (hq x hx), fun e he x hx => h.fact e he x (hq x hx), ?_, ?_⟩
  · intro hP b
    rw [← h.val hP b]
    have : writes (c.q.filter (fun x => x.id != r)) b = writes c.q b := by
      unfold writes
      rw [List.filter_filter]
      apply List.filter_congr
      intro x hx
      by_cases hid : x.id = r
      · simp [hrd x hx hid]
      · simp [hid]
    simp only [eff, this]
  · intro hP e he b v hb hv
    have := h.good hP e he b v hb hv
    refine ⟨fun hn => this.fin (fun hr => hn ?_), fun hr => ?_⟩
    · obtain ⟨x, hx, h1, h2⟩ := hr
      have hne : e.req ≠ r := fun hr => by
        rw [hw e he x hx (h1.trans hr) hr] at hv; exact absurd hv (by simp)
      exact ⟨x, List.mem_filter.2 ⟨hx, by simp [h1, hne]⟩, h1, h2⟩
    · obtain ⟨x, hx, h1, h2⟩ := hr
      obtain ⟨k1, k2⟩ := this.rd ⟨x, hq x hx, h1, h2⟩
      exact ⟨k1, fun y hy => k2 y (hq y hy)⟩

/-- Changing the content of an idle block. -/
theorem CInv.fill {c : Core V} (h : CInv P c) {blk : Nat} (hb : blk ∈ c.idle) (v : V) :
    CInv P { c with mem := upd c.mem blk v } := by
  obtain ⟨h1, h2⟩ := h.idle_free hb
  refine ⟨h.nd, h.lt, h.ids, h.idlt, h.reqlt, h.infl, h.fact, ?_, ?_⟩
  · intro hP b
    rw [← h.val hP b]
    simp only [eff]
    split
    · rename_i x hx
      have hxq : x ∈ c.q := (List.mem_filter.1 (List.mem_of_getLast? hx)).1
      simp [upd, h1 x hxq]
    · rfl
  · intro hP e he b w hbid hw
    have := h.good hP e he b w hbid hw
    refine ⟨fun hn => ?_, this.rd⟩
    show upd c.mem blk v e.blk = w
    rw [upd, if_neg (h2 e he)]
    exact this.fin hn

/-- Serving a request in a queue that keeps requests behind earlier writes of their identifier. -/
theorem CInv.serve {c : Core V} (h : CInv P c) {i : Nat} {x : Req} (hx : c.q[i]? = some x)
    (hm' : P → ∀ y ∈ c.q.take i, y.bid = x.bid → y.rd = true) :
    CInv P { c with q := c.q.eraseIdx i
                    mem := if x.rd then upd c.mem x.blk (c.disk x.bid) else c.mem
                    disk := if x.rd then c.disk else upd c.disk x.bid (c.mem x.blk) } := by
  obtain ⟨hlt, hxe⟩ := List.getElem?_eq_some_iff.1 hx
  have hsplit : c.q = c.q.take i ++ x :: c.q.drop (i + 1) := by
    rw [← hxe, List.getElem_cons_drop, List.take_append_drop]
  have herase : c.q.eraseIdx i = c.q.take i ++ c.q.drop (i + 1) := List.eraseIdx_eq_take_drop_succ ..
  have hxq : x ∈ c.q := List.mem_of_getElem? hx
  have hq : ∀ y ∈ c.q.eraseIdx i, y ∈ c.q := fun y hy => (List.eraseIdx_sublist ..).mem hy
  have hqne : ∀ y ∈ c.q.eraseIdx i, y ≠ x := by
    intro y hy heq
    subst heq
    have := h.ids
    rw [hsplit, List.pairwise_append, List.pairwise_cons] at this
    rw [herase] at hy
    rcases List.mem_append.1 hy with hy | hy
    · have := this.2.2 y hy y (by simp); omega
    · have := this.2.1.1 y hy; omega
  have hback : ∀ y ∈ c.q, y ≠ x → y ∈ c.q.eraseIdx i := by
    intro y hy hne
    rw [hsplit] at hy
    rw [herase]
    rcases List.mem_append.1 hy with hy | hy
    · exact List.mem_append_left _ hy
    · rcases List.mem_cons.1 hy with hy | hy
      · exact absurd hy hne
      · exact List.mem_append_right _ hy
  -- another request uses another block
  have hblk : ∀ y ∈ c.q, y ≠ x → y.blk ≠ x.blk := by
    intro y hy hne heq
    obtain ⟨e, he, e1, e2⟩ := h.infl x hxq
    obtain ⟨f, hf, f1, f2⟩ := h.infl y hy
    have : f = e := blk_inj h.ents_nd hf he (by rw [f1, e1, heq])
    subst this
    exact hne (pairwise_id_inj h.ids hy hxq (by rw [← f2, ← e2]))
  have hw : ∀ b, writes c.q b = writes (c.q.take i) b ++ ((if x.bid = b ∧ x.rd = false then [x] else []) ++ writes (c.q.drop (i + 1)) b) := by
    intro b
    conv => lhs; rw [hsplit]
    unfold writes
    rw [List.filter_append]
    congr 1
    by_cases hc : x.bid = b ∧ x.rd = false
    · simp [hc]
    · rw [if_neg hc]
      have : (x.bid == b && !x.rd) = false := by
        rw [Bool.eq_false_iff]; intro hh; simp at hh; exact hc hh
      simp [List.filter_cons, this]
  have hw' : ∀ b, writes (c.q.eraseIdx i) b = writes (c.q.take i) b ++ writes (c.q.drop (i + 1)) b := by
    intro b; rw [herase]; unfold writes; rw [List.filter_append]
  have hnow : P → writes (c.q.take i) x.bid = [] := by
    intro hP
    have hm := hm' hP
    unfold writes
    rw [List.filter_eq_nil_iff]
    intro y hy hh
    simp at hh
    have := hm y hy hh.1
    rw [hh.2] at this; exact absurd this (by simp)
  refine ⟨h.nd, h.lt, h.ids.sublist (List.eraseIdx_sublist ..), fun y hy => h.idlt y (hq y hy), h.reqlt,
    fun y hy => h.infl y (hq y hy), fun e he y hy => h.fact e he y (hq y hy), ?_, ?_⟩
  · intro hP b
    rw [← h.val hP b]
    cases hrd : x.rd with
    | true =>
      simp only [if_true, eff, hw', hw b, hrd, Bool.true_eq_false, and_false, if_false, List.nil_append]
      split
      · rename_i y hy
        have hmem := List.mem_of_getLast? hy
        rw [← hw'] at hmem
        have hyq := (List.mem_filter.1 hmem).1
        simp [upd, hblk y (hq y hyq) (hqne y hyq)]
      · rfl
    | false =>
      by_cases hb : x.bid = b
      · subst hb
        simp only [Bool.false_eq_true, if_false, eff, hw', hw x.bid, hrd, hnow hP, and_self, if_true, List.nil_append]
        cases hl : (writes (c.q.drop (i + 1)) x.bid).getLast? with
        | some y => simp [List.getLast?_cons, hl]
        | none =>
          rw [List.getLast?_eq_none_iff] at hl
          simp [hl, upd]
      · simp only [Bool.false_eq_true, if_false, eff, hw', hw b, hb, false_and, List.nil_append]
        split
        · rfl
        · rw [upd, if_neg (fun h => hb h.symm)]
  · intro hP e he b v hb hv
    have hg := h.good hP e he b v hb hv
    by_cases hex : e.req = x.id
    · obtain ⟨f1, _, f3⟩ := h.fact e he x hxq hex.symm
      have hxb := f3 b hb
      have hnr : ¬ Reading (c.q.eraseIdx i) e.req := by
        rintro ⟨y, hy, h1, _⟩
        exact hqne y hy (pairwise_id_inj h.ids (hq y hy) hxq (h1.trans hex))
      refine ⟨fun _ => ?_, fun hr => absurd hr hnr⟩
      cases hrd : x.rd with
      | true =>
        obtain ⟨k1, k2⟩ := hg.rd ⟨x, hxq, hex.symm, hrd⟩
        simp only [if_true]
        rw [upd, if_pos f1.symm, hxb, k1, ← h.val hP b]
        -- no write is pending
        have : writes c.q b = [] := by
          rw [hw b, ← hxb, hnow hP]
          simp only [hrd, Bool.true_eq_false, and_false, if_false, List.nil_append]
          unfold writes
          rw [List.filter_eq_nil_iff]
          intro y hy hh
          simp at hh
          have hyq : y ∈ c.q := by rw [hsplit]; exact List.mem_append_right _ (List.mem_cons_of_mem _ hy)
          have h1 := k2 y hyq (hh.1.trans hxb) hh.2
          have := h.ids
          rw [hsplit, List.pairwise_append, List.pairwise_cons] at this
          have := this.2.1.1 y hy
          omega
        simp [eff, this]
      | false =>
        simp only [Bool.false_eq_true, if_false]
        apply hg.fin
        rintro ⟨y, hy, h1, h2⟩
        have : y = x := pairwise_id_inj h.ids hy hxq (h1.trans hex)
        rw [this, hrd] at h2; exact absurd h2 (by simp)
    · have hiff : Reading (c.q.eraseIdx i) e.req ↔ Reading c.q e.req := by
        constructor
        · rintro ⟨y, hy, h1, h2⟩; exact ⟨y, hq y hy, h1, h2⟩
        · rintro ⟨y, hy, h1, h2⟩
          exact ⟨y, hback y hy (fun h => hex (by rw [← h1, h])), h1, h2⟩
      refine ⟨fun hn => ?_, fun hr => ?_⟩
      · have hfin := hg.fin (fun hr => hn (hiff.2 hr))
        cases hrd : x.rd with
        | true =>
          simp only [if_true]
          have : e.blk ≠ x.blk := by
            intro heq
            obtain ⟨e', he', e1, e2⟩ := h.infl x hxq
            have : e = e' := blk_inj h.ents_nd he he' (heq.trans e1.symm)
            subst this
            exact hex e2
          rw [upd, if_neg this]
          exact hfin
        | false => simpa using hfin
      · obtain ⟨k1, k2⟩ := hg.rd (hiff.1 hr)
        exact ⟨k1, fun y hy => k2 y (hq y hy)⟩

/-! ### From the states to the view -/

def wE (last : Nat → V) (e : WEntry) : Ent V := ⟨e.blk, e.req, some false, e.bid, e.bid.map last⟩

def stale (pc : Pc) (b : Nat) : Bool :=
  match pc with
  | .inval b' _ => b == b'
  | _ => false

def pE (last : Nat → V) (pc : Pc) (e : PEntry) : Ent V :=
  ⟨e.blk, e.req, some e.rd, some e.bid, if stale pc e.bid then none else some (last e.bid)⟩

def uE (e : UEntry V) : Ent V := ⟨e.blk, e.req, none, some e.bid, some e.want⟩

def idleOf (s : St V) : List Nat := s.wfree ++ s.pfree ++ s.uidle

def entsOf (s : St V) : List (Ent V) := s.wbusy.map (wE s.last) ++ s.pbusy.map (pE s.last s.pc) ++ s.upend.map uE

def core (s : St V) : Core V :=
  { mem := s.mem, disk := s.disk, q := s.q, nextReq := s.nextReq, nextBlk := s.nextBlk, last := s.last,
    idle := idleOf s, ents := entsOf s }

structure SInv (P : Prop) (s : St V) : Prop where
  ci : CInv P (core s)
  pfs : s.pfs = s.pfree.length
  pnd : (s.pbusy.map (·.bid)).Nodup
  pcb : ∀ b r, s.pc = .inval b r → ∃ e ∈ s.pbusy, e.bid = b
  res : P → ∀ r ∈ s.results, r.2.1 = r.2.2

theorem map_wE_blk (f : Nat → V) (l : List WEntry) : (l.map (wE f)).map (·.blk) = l.map (·.blk) := by
  simp [wE]
theorem map_pE_blk (f : Nat → V) (pc : Pc) (l : List PEntry) : (l.map (pE f pc)).map (·.blk) = l.map (·.blk) := by
  simp [pE]
theorem map_uE_blk (l : List (UEntry V)) : (l.map uE).map (·.blk) = l.map (·.blk) := by
  simp [uE]

/-- All blocks of a state. -/
def blocksOf (s : St V) : List Nat :=
  (s.wfree ++ s.pfree ++ s.uidle) ++ (s.wbusy.map (·.blk) ++ s.pbusy.map (·.blk) ++ s.upend.map (·.blk))

theorem blocks_eq (s : St V) : idleOf s ++ (entsOf s).map (·.blk) = blocksOf s := by
  simp only [idleOf, entsOf, blocksOf, List.map_append, map_wE_blk, map_pE_blk, map_uE_blk]

theorem isDone_iff (s : St V) (r : Nat) : isDone s r = true ↔ ∀ x ∈ s.q, x.id ≠ r := by
  simp [isDone, List.all_eq_true]

theorem SInv.start (nw np : Nat) (mem disk : Nat → V) : SInv P (init nw np mem disk) := by
  refine ⟨⟨?_, ?_, ?_, ?_, ?_, ?_, ?_, ?_, ?_⟩, ?_, ?_, ?_, ?_⟩ <;>
    simp [core, init, idleOf, entsOf, eff, writes]
  · rw [List.nodup_append]
    refine ⟨List.nodup_range, List.nodup_range' .., ?_⟩
    intro a ha b hb
    simp at ha hb
    omega
  · omega

/-- A step that only rearranges blocks. -/
theorem SInv.move {s s' : St V} (h : SInv P s) (hm : s'.mem = s.mem) (hd : s'.disk = s.disk) (hq : s'.q = s.q)
    (hr : s'.nextReq = s.nextReq) (hl : s'.last = s.last) (hb : (blocksOf s').Nodup) (hlt : ∀ x ∈ blocksOf s', x < s'.nextBlk)
    (hfrom : ∀ e ∈ entsOf s', ∃ e0 ∈ entsOf s, e.blk = e0.blk ∧ e.req = e0.req ∧ (e.rd = e0.rd ∨ e.rd = none) ∧
      e.bid = e0.bid ∧ (e.want = e0.want ∨ e.want = none))
    (hto : ∀ e0 ∈ entsOf s, (∃ e ∈ entsOf s', e.blk = e0.blk ∧ e.req = e0.req) ∨ isDone s e0.req = true)
    (hp : s'.pfs = s'.pfree.length) (hpn : (s'.pbusy.map (·.bid)).Nodup)
    (hpc : ∀ b r, s'.pc = .inval b r → ∃ e ∈ s'.pbusy, e.bid = b) (hres : P → ∀ r ∈ s'.results, r.2.1 = r.2.2) : SInv P s' := by
  refine ⟨?_, hp, hpn, hpc, hres⟩
  have := h.ci.rearrange (idle := idleOf s') (ents := entsOf s') (nb := s'.nextBlk) (by rw [blocks_eq]; exact hb)
    (by rw [blocks_eq]; exact hlt) hfrom (by
      intro e0 h0
      rcases hto e0 h0 with h1 | h1
      · exact Or.inl h1
      · exact Or.inr ((isDone_iff s e0.req).1 h1))
  unfold core
  rw [hm, hd, hq, hr, hl]
  exact this

theorem SInv.nd {s : St V} (h : SInv P s) : (blocksOf s).Nodup := by rw [← blocks_eq]; exact h.ci.nd
theorem SInv.lt {s : St V} (h : SInv P s) : ∀ x ∈ blocksOf s, x < s.nextBlk := by rw [← blocks_eq]; exact h.ci.lt

/-- A step that only rearranges idle blocks (and possibly adds or drops some). -/
theorem SInv.moveIdle {s s' : St V} (h : SInv P s) (hm : s'.mem = s.mem) (hd : s'.disk = s.disk) (hq : s'.q = s.q)
    (hr : s'.nextReq = s.nextReq) (hl : s'.last = s.last) (hw : s'.wbusy = s.wbusy) (hpb : s'.pbusy = s.pbusy)
    (hu : s'.upend = s.upend) (hst : ∀ b r, s'.pc = .inval b r ↔ s.pc = .inval b r) (hres : s'.results = s.results)
    (hb : (s'.wfree ++ s'.pfree ++ s'.uidle).Nodup)
    (hsub : ∀ x ∈ s'.wfree ++ s'.pfree ++ s'.uidle, x ∈ idleOf s ∨ s.nextBlk ≤ x ∧ x < s'.nextBlk)
    (hnb : s.nextBlk ≤ s'.nextBlk) (hp : s'.pfs = s'.pfree.length) : SInv P s' := by
  have hents : entsOf s' = entsOf s := by
    unfold entsOf
    rw [hw, hpb, hu, hl]
    congr 2
    apply List.map_congr_left
    intro e _
    have : stale s'.pc e.bid = stale s.pc e.bid := by
      cases h1 : s.pc with
      | inval b r => rw [(hst b r).2 h1]
      | idle =>
        cases h2 : s'.pc with
        | inval b r => rw [hst] at h2; rw [h1] at h2; exact absurd h2 (by simp)
        | _ => rfl
      | resizing k =>
        cases h2 : s'.pc with
        | inval b r => rw [hst] at h2; rw [h1] at h2; exact absurd h2 (by simp)
        | _ => rfl
    simp [pE, this]
  have hnd := h.ci.nd
  have hlt := h.ci.lt
  refine h.move hm hd hq hr hl ?_ ?_ ?_ ?_ hp (by rw [hpb]; exact h.pnd) (by rw [hpb]; intro b r hh; exact h.pcb b r ((hst b r).1 hh))
    (by rw [hres]; exact h.res)
  · rw [← blocks_eq, hents]
    show ((s'.wfree ++ s'.pfree ++ s'.uidle) ++ _).Nodup
    rw [List.nodup_append] at hnd ⊢
    refine ⟨hb, hnd.2.1, ?_⟩
    intro a ha b hb' heq
    rcases hsub a ha with h1 | h1
    · exact hnd.2.2 a h1 b hb' heq
    · have := hlt b (List.mem_append_right _ hb')
      have h2 : (core s).nextBlk = s.nextBlk := rfl
      omega
  · intro x hx
    rw [← blocks_eq, hents] at hx
    rcases List.mem_append.1 hx with hx | hx
    · rcases hsub x hx with h1 | h1
      · have : x < s.nextBlk := hlt x (List.mem_append_left _ h1)
        omega
      · exact h1.2
    · have : x < s.nextBlk := hlt x (List.mem_append_right _ hx)
      omega
  · rw [hents]; intro e he; exact ⟨e, he, rfl, rfl, Or.inl rfl, rfl, Or.inl rfl⟩
  · rw [hents]; intro e he; exact Or.inl ⟨e, he, rfl, rfl⟩

theorem SInv.idle_nd {s : St V} (h : SInv P s) : (s.wfree ++ s.pfree ++ s.uidle).Nodup := (List.nodup_append.1 h.ci.nd).1

theorem perm_erase_right {l : List Nat} {a : Nat} (h : a ∈ l) : l.Perm (l.erase a ++ [a]) :=
  (List.perm_cons_erase h).trans (List.perm_append_comm (l₁ := [a]))

theorem getLast?_split {α : Type} {l : List α} {a : α} (h : l.getLast? = some a) : l = l.dropLast ++ [a] := by
  have hne : l ≠ [] := by intro hh; rw [hh] at h; simp at h
  rw [List.getLast?_eq_some_getLast hne] at h
  simp only [Option.some.injEq] at h
  rw [← h, List.dropLast_concat_getLast]

theorem SInv.alloc {s : St V} (h : SInv P s) :
    SInv P { s with uidle := s.uidle ++ [s.nextBlk], nextBlk := s.nextBlk + 1 } := by
  refine h.moveIdle rfl rfl rfl rfl rfl rfl rfl rfl (fun _ _ => Iff.rfl) rfl ?_ ?_ (by simp) h.pfs
  · have := h.idle_nd
    show (s.wfree ++ s.pfree ++ (s.uidle ++ [s.nextBlk])).Nodup
    rw [← List.append_assoc, List.nodup_append]
    refine ⟨this, by simp, ?_⟩
    intro a ha b hb heq
    simp at hb
    have : a < s.nextBlk := h.ci.lt a (List.mem_append_left _ ha)
    omega
  · intro x hx
    simp only [List.mem_append, List.mem_singleton, idleOf] at hx ⊢
    rcases hx with hx | hx | hx
    · exact Or.inl (Or.inl hx)
    · exact Or.inl (Or.inr hx)
    · right; omega

theorem SInv.fillIdle {s : St V} (h : SInv P s) {blk : Nat} (hb : blk ∈ s.uidle) (v : V) :
    SInv P { s with mem := upd s.mem blk v } := by
  refine ⟨?_, h.pfs, h.pnd, h.pcb, h.res⟩
  exact h.ci.fill (blk := blk) (by simp [core, idleOf, hb]) v

/-- Idle blocks rearranged: permutation version. -/
theorem SInv.permIdle {s s' : St V} (h : SInv P s) (hm : s'.mem = s.mem) (hd : s'.disk = s.disk) (hq : s'.q = s.q)
    (hr : s'.nextReq = s.nextReq) (hl : s'.last = s.last) (hw : s'.wbusy = s.wbusy) (hpb : s'.pbusy = s.pbusy)
    (hu : s'.upend = s.upend) (hst : ∀ b r, s'.pc = .inval b r ↔ s.pc = .inval b r) (hres : s'.results = s.results)
    (hp : (s'.wfree ++ s'.pfree ++ s'.uidle).Perm (s.wfree ++ s.pfree ++ s.uidle)) (hnb : s.nextBlk = s'.nextBlk)
    (hpf : s'.pfs = s'.pfree.length) : SInv P s' :=
  h.moveIdle hm hd hq hr hl hw hpb hu hst hres (hp.nodup_iff.2 h.idle_nd) (fun x hx => Or.inl (hp.mem_iff.1 hx))
    (by omega) hpf

/-- Idle blocks dropped. -/
theorem SInv.dropIdle {s s' : St V} (h : SInv P s) (hm : s'.mem = s.mem) (hd : s'.disk = s.disk) (hq : s'.q = s.q)
    (hr : s'.nextReq = s.nextReq) (hl : s'.last = s.last) (hw : s'.wbusy = s.wbusy) (hpb : s'.pbusy = s.pbusy)
    (hu : s'.upend = s.upend) (hst : ∀ b r, s'.pc = .inval b r ↔ s.pc = .inval b r) (hres : s'.results = s.results)
    (hp : (s'.wfree ++ s'.pfree ++ s'.uidle).Sublist (s.wfree ++ s.pfree ++ s.uidle)) (hnb : s.nextBlk = s'.nextBlk)
    (hpf : s'.pfs = s'.pfree.length) : SInv P s' :=
  h.moveIdle hm hd hq hr hl hw hpb hu hst hres (h.idle_nd.sublist hp) (fun x hx => Or.inl (hp.mem hx))
    (by omega) hpf

theorem SInv.add {s : St V} (h : SInv P s) {blk : Nat} (hb : blk ∈ s.uidle) :
    SInv P { s with uidle := s.uidle.erase blk, wfree := s.wfree ++ [blk] } := by
  refine h.permIdle rfl rfl rfl rfl rfl rfl rfl rfl (fun _ _ => Iff.rfl) rfl ?_ rfl h.pfs
  have := perm_erase_right hb
  rw [List.perm_iff_count] at this ⊢
  intro a
  have := this a
  simp only [List.count_append] at this ⊢
  omega

theorem SInv.addP {s : St V} (h : SInv P s) {blk : Nat} (hb : blk ∈ s.uidle) :
    SInv P { s with uidle := s.uidle.erase blk, pfree := s.pfree ++ [blk], pfs := s.pfs + 1 } := by
  refine h.permIdle rfl rfl rfl rfl rfl rfl rfl rfl (fun _ _ => Iff.rfl) rfl ?_ rfl (by simp [h.pfs])
  have := perm_erase_right hb
  rw [List.perm_iff_count] at this ⊢
  intro a
  have := this a
  simp only [List.count_append] at this ⊢
  omega

theorem SInv.stealP {s : St V} (h : SInv P s) {p : Nat} (hb : s.pfree.getLast? = some p) :
    SInv P { s with pfree := s.pfree.dropLast, pfs := s.pfs - 1, uidle := s.uidle ++ [p] } := by
  refine h.permIdle rfl rfl rfl rfl rfl rfl rfl rfl (fun _ _ => Iff.rfl) rfl ?_ rfl (by simp [h.pfs])
  have := getLast?_split hb
  rw [List.perm_iff_count]
  intro a
  conv => rhs; rw [this]
  simp only [List.count_append]
  omega

theorem range'_fresh {s : St V} (h : SInv P s) (d : Nat) {l : List Nat} (hl : l.Perm (s.wfree ++ s.pfree ++ s.uidle ++ List.range' s.nextBlk d)) :
    l.Nodup ∧ ∀ x ∈ l, x ∈ idleOf s ∨ s.nextBlk ≤ x ∧ x < s.nextBlk + d := by
  constructor
  · rw [hl.nodup_iff, List.nodup_append]
    refine ⟨h.idle_nd, List.nodup_range' .., ?_⟩
    intro a ha b hb heq
    have : a < s.nextBlk := h.ci.lt a (List.mem_append_left _ ha)
    simp at hb
    omega
  · intro x hx
    rcases List.mem_append.1 (hl.mem_iff.1 hx) with hx | hx
    · exact Or.inl hx
    · simp at hx; exact Or.inr hx

theorem SInv.presize {s : St V} (h : SInv P s) (n : Nat) : SInv P (presize s n) := by
  unfold Foxxll.Pool.presize
  split
  · simp only
    have := range'_fresh h (n - psize s) (l := s.wfree ++ (s.pfree ++ List.range' s.nextBlk (n - psize s)) ++ s.uidle) (by
      rw [List.perm_iff_count]; intro a; simp only [List.count_append]; omega)
    exact h.moveIdle rfl rfl rfl rfl rfl rfl rfl rfl (fun _ _ => Iff.rfl) rfl this.1 this.2 (by simp) (by simp [h.pfs])
  · simp only
    refine h.dropIdle rfl rfl rfl rfl rfl rfl rfl rfl (fun _ _ => Iff.rfl) rfl ?_ rfl ?_
    · exact ((List.Sublist.refl _).append (List.take_sublist ..)).append (List.Sublist.refl _)
    · have := h.pfs
      simp only [List.length_take]
      omega

theorem SInv.wresize {s : St V} (h : SInv P s) (hpc : s.pc = .idle) (n : Nat) : SInv P (wresize s n) := by
  unfold Foxxll.Pool.wresize
  split
  · simp only
    have := range'_fresh h (n - wsize s) (l := (s.wfree ++ List.range' s.nextBlk (n - wsize s)) ++ s.pfree ++ s.uidle) (by
      rw [List.perm_iff_count]; intro a; simp only [List.count_append]; omega)
    exact h.moveIdle rfl rfl rfl rfl rfl rfl rfl rfl (fun _ _ => Iff.rfl) rfl this.1 this.2 (by simp) h.pfs
  · exact h.permIdle rfl rfl rfl rfl rfl rfl rfl rfl (by simp [hpc]) rfl (List.Perm.refl _) rfl h.pfs

theorem mem_ents_w {s : St V} {e : WEntry} (h : e ∈ s.wbusy) : wE s.last e ∈ entsOf s := by
  simp only [entsOf, List.mem_append]; exact Or.inl (Or.inl (List.mem_map_of_mem h))
theorem mem_ents_p {s : St V} {e : PEntry} (h : e ∈ s.pbusy) : pE s.last s.pc e ∈ entsOf s := by
  simp only [entsOf, List.mem_append]; exact Or.inl (Or.inr (List.mem_map_of_mem h))
theorem mem_ents_u {s : St V} {e : UEntry V} (h : e ∈ s.upend) : uE e ∈ entsOf s := by
  simp only [entsOf, List.mem_append]; exact Or.inr (List.mem_map_of_mem h)

theorem ents_cases {s : St V} {e : Ent V} (h : e ∈ entsOf s) :
    (∃ x ∈ s.wbusy, wE s.last x = e) ∨ (∃ x ∈ s.pbusy, pE s.last s.pc x = e) ∨ ∃ x ∈ s.upend, uE x = e := by
  simp only [entsOf, List.mem_append, List.mem_map] at h
  rcases h with (h | h) | h
  · exact Or.inl h
  · exact Or.inr (Or.inl h)
  · exact Or.inr (Or.inr h)

theorem stale_iff (pc : Pc) (b : Nat) : stale pc b = true ↔ ∃ r, pc = .inval b r := by
  cases pc <;> simp [stale]
  exact eq_comm

theorem stale_false {pc : Pc} (h : ∀ b r, pc ≠ .inval b r) (b : Nat) : stale pc b = false := by
  cases hs : stale pc b with
  | false => rfl
  | true => obtain ⟨r, hr⟩ := (stale_iff pc b).1 hs; exact absurd hr (h b r)

theorem getElem_cons_eraseIdx {α : Type} {l : List α} {i : Nat} (h : i < l.length) : (l[i] :: l.eraseIdx i).Perm l := by
  rw [List.eraseIdx_eq_take_drop_succ]
  refine List.perm_middle.symm.trans ?_
  rw [List.getElem_cons_drop, List.take_append_drop]

theorem wsteal_inv {s s' : St V} {c : Option Nat} {polled : List Nat} {p : Nat} (h : SInv P s)
    (hs : wsteal s c polled = .ok (s', p)) : SInv P { s' with uidle := s'.uidle ++ [p] } := by
  unfold wsteal at hs
  split at hs
  · simp at hs
  split at hs
  · rename_i p' hp'
    simp only [Res.ok.injEq, Prod.mk.injEq] at hs
    obtain ⟨rfl, rfl⟩ := hs
    refine h.permIdle rfl rfl rfl rfl rfl rfl rfl rfl (fun _ _ => Iff.rfl) rfl ?_ rfl h.pfs
    have := getLast?_split hp'
    rw [List.perm_iff_count]
    intro a
    conv => rhs; rw [this]
    simp only [List.count_append]
    omega
  · split at hs
    · simp at hs
    split at hs
    · simp at hs
    rename_i c' _ e he
    split at hs
    · rename_i hdone
      simp only [Bool.and_eq_true, List.all_eq_true] at hdone
      simp only [Res.ok.injEq, Prod.mk.injEq] at hs
      obtain ⟨rfl, rfl⟩ := hs
      have hperm : ∀ f : WEntry → Nat, (((s.wbusy.eraseIdx c').filter (fun x => polled.contains x.req)).map f ++
          (f e :: ((s.wbusy.eraseIdx c').filter (fun x => !polled.contains x.req)).map f)).Perm (s.wbusy.map f) := by
        intro f
        obtain ⟨hlt, hge⟩ := List.getElem?_eq_some_iff.1 he
        have h1 : (s.wbusy[c'] :: s.wbusy.eraseIdx c').Perm s.wbusy := getElem_cons_eraseIdx hlt
        rw [hge] at h1
        have h2 := List.filter_append_perm (fun x : WEntry => polled.contains x.req) (s.wbusy.eraseIdx c')
        refine List.Perm.trans ?_ (h1.map f)
        refine List.perm_middle.trans ?_
        simp only [List.map_cons]
        rw [← List.map_append]
        exact List.Perm.cons _ (h2.map f)
      have hb := hperm (·.blk)
      have hpp : (blocksOf { s with wbusy := (s.wbusy.eraseIdx c').filter (fun x => !polled.contains x.req)
                                    wfree := s.wfree ++ ((s.wbusy.eraseIdx c').filter (fun x => polled.contains x.req)).map (·.blk)
                                    uidle := s.uidle ++ [e.blk] }).Perm (blocksOf s) := by
        rw [List.perm_iff_count] at hb ⊢
        intro a
        have := hb a
        simp only [blocksOf, List.count_append, List.count_cons, List.count_nil] at this ⊢
        omega
      refine h.move rfl rfl rfl rfl rfl (hpp.nodup_iff.2 h.nd) (fun x hx => h.lt x (hpp.mem_iff.1 hx)) ?_ ?_ h.pfs h.pnd h.pcb h.res
      · intro x hx
        refine ⟨x, ?_, rfl, rfl, Or.inl rfl, rfl, Or.inl rfl⟩
        rcases ents_cases hx with ⟨y, hy, rfl⟩ | ⟨y, hy, rfl⟩ | ⟨y, hy, rfl⟩
        · exact mem_ents_w ((List.eraseIdx_sublist ..).mem (List.mem_filter.1 hy).1)
        · exact mem_ents_p hy
        · exact mem_ents_u hy
      · intro x hx
        rcases ents_cases hx with ⟨y, hy, rfl⟩ | ⟨y, hy, rfl⟩ | ⟨y, hy, rfl⟩
        · by_cases h1 : y ∈ (s.wbusy.eraseIdx c').filter (fun x => !polled.contains x.req)
          · left
            exact ⟨_, mem_ents_w (s := { s with wbusy := (s.wbusy.eraseIdx c').filter (fun x => !polled.contains x.req)
                                                wfree := s.wfree ++ ((s.wbusy.eraseIdx c').filter (fun x => polled.contains x.req)).map (·.blk)
                                                uidle := s.uidle ++ [e.blk] }) h1, rfl, rfl⟩
          · right
            by_cases hye : y = e
            · rw [hye]; exact hdone.1
            · have h2 : y ∈ s.wbusy.eraseIdx c' := by
                obtain ⟨hlt, hge⟩ := List.getElem?_eq_some_iff.1 he
                have := (getElem_cons_eraseIdx hlt).mem_iff.2 hy
                rw [hge] at this
                exact (List.mem_cons.1 this).resolve_left hye
              have h3 : polled.contains y.req = true := by
                cases hc : polled.contains y.req with
                | true => rfl
                | false => exact absurd (List.mem_filter.2 ⟨h2, by simp only [hc]; rfl⟩) h1
              exact hdone.2 y.req (by simpa using h3)
        · exact Or.inl ⟨_, mem_ents_p hy, rfl, rfl⟩
        · exact Or.inl ⟨_, mem_ents_u hy, rfl, rfl⟩
    · simp at hs

theorem wsteal_drop {s s' : St V} {c : Option Nat} {polled : List Nat} {p : Nat} (h : SInv P s)
    (hs : wsteal s c polled = .ok (s', p)) {pc : Pc} (hpc : ∀ b r, pc ≠ .inval b r) (hpc' : ∀ b r, s'.pc ≠ .inval b r) :
    SInv P { s' with pc := pc } := by
  have h1 := wsteal_inv h hs
  refine h1.dropIdle rfl rfl rfl rfl rfl rfl rfl rfl (by intro b r; simp [hpc, hpc']) rfl ?_ rfl h1.pfs
  exact (List.Sublist.refl _).append (List.sublist_append_left ..)

theorem SInv.collect {s : St V} (h : SInv P s) {i : Nat} {e : UEntry V} (he : s.upend[i]? = some e)
    (hd : isDone s e.req = true) :
    SInv P { s with upend := s.upend.eraseIdx i, uidle := s.uidle ++ [e.blk], results := s.results ++ [(e.bid, e.want, s.mem e.blk)] } := by
  have hmem : e ∈ s.upend := List.mem_of_getElem? he
  obtain ⟨hlt, hge⟩ := List.getElem?_eq_some_iff.1 he
  have hperm : (s.upend[i] :: s.upend.eraseIdx i).Perm s.upend := getElem_cons_eraseIdx hlt
  rw [hge] at hperm
  have hb := hperm.map (·.blk)
  have hpp : (blocksOf { s with upend := s.upend.eraseIdx i, uidle := s.uidle ++ [e.blk],
                                results := s.results ++ [(e.bid, e.want, s.mem e.blk)] }).Perm (blocksOf s) := by
    rw [List.perm_iff_count] at hb ⊢
    intro a
    have := hb a
    simp only [blocksOf, List.count_append, List.map_cons, List.count_cons, List.count_nil] at this ⊢
    omega
  refine h.move rfl rfl rfl rfl rfl (hpp.nodup_iff.2 h.nd) (fun x hx => h.lt x (hpp.mem_iff.1 hx)) ?_ ?_ h.pfs h.pnd h.pcb ?_
  · intro x hx
    refine ⟨x, ?_, rfl, rfl, Or.inl rfl, rfl, Or.inl rfl⟩
    rcases ents_cases hx with ⟨y, hy, rfl⟩ | ⟨y, hy, rfl⟩ | ⟨y, hy, rfl⟩
    · exact mem_ents_w hy
    · exact mem_ents_p hy
    · exact mem_ents_u ((List.eraseIdx_sublist ..).mem hy)
  · intro x hx
    rcases ents_cases hx with ⟨y, hy, rfl⟩ | ⟨y, hy, rfl⟩ | ⟨y, hy, rfl⟩
    · exact Or.inl ⟨_, mem_ents_w hy, rfl, rfl⟩
    · exact Or.inl ⟨_, mem_ents_p hy, rfl, rfl⟩
    · rcases List.mem_cons.1 (hperm.mem_iff.2 hy) with h1 | h1
      · right; rw [h1]; exact hd
      · exact Or.inl ⟨uE y, by simp only [entsOf, List.mem_append]; exact Or.inr (List.mem_map_of_mem h1), rfl, rfl⟩
  · intro hP r hr
    rcases List.mem_append.1 hr with hr | hr
    · exact h.res hP r hr
    · simp at hr
      subst hr
      have := h.ci.good hP (uE e) (mem_ents_u hmem) e.bid e.want rfl rfl
      refine (this.fin ?_).symm
      rintro ⟨x, hx, h1, _⟩
      exact (isDone_iff s e.req).1 hd x hx h1

theorem SInv.serve {s : St V} (h : SInv P s) {i : Nat} {x : Req} (hx : s.q[i]? = some x) (hm' : P → mayServe true s.q i = true) :
    SInv P { s with q := s.q.eraseIdx i
                    mem := if x.rd then upd s.mem x.blk (s.disk x.bid) else s.mem
                    disk := if x.rd then s.disk else upd s.disk x.bid (s.mem x.blk) } := by
  refine ⟨?_, h.pfs, h.pnd, h.pcb, h.res⟩
  refine h.ci.serve hx ?_
  intro hP y hy hb
  have hm := hm' hP
  simp only [mayServe, hx, Bool.not_true, Bool.false_or, List.all_eq_true] at hm
  have := hm y hy
  simpa [hb] using this

theorem findP_some {s : St V} {b : Nat} {e : PEntry} (h : findP s b = some e) : e ∈ s.pbusy ∧ e.bid = b :=
  ⟨List.mem_of_find?_eq_some h, by simpa using List.find?_some h⟩
theorem findP_none {s : St V} {b : Nat} (h : findP s b = none) : ∀ e ∈ s.pbusy, e.bid ≠ b := by
  intro e he
  have := List.find?_eq_none.1 h e he
  simpa using this
theorem findW_some {s : St V} {b : Nat} {e : WEntry} (h : findW s b = some e) : e ∈ s.wbusy ∧ e.bid = some b :=
  ⟨List.mem_of_find?_eq_some h, by simpa using List.find?_some h⟩

theorem SInv.hint {s : St V} (h : SInv P s) (hpc : s.pc = .idle) (b : Nat) : SInv P (hint s b) := by
  have hst : ∀ b, stale s.pc b = false := stale_false (by rw [hpc]; simp)
  unfold Foxxll.Pool.hint
  split
  · exact h
  rename_i hfp
  have hfp : findP s b = none := by simpa using hfp
  have hpn := findP_none hfp
  by_cases hz : s.pfs ≠ 0
  case neg => rw [if_neg hz]; exact h
  rw [if_pos hz]
  split
  · exact h
  rename_i blk hblk
  have hsplit := getLast?_split hblk
  simp only
  have hpnd : ((s.pbusy.map (·.bid)) ++ [b]).Nodup := by
    rw [List.nodup_append]
    refine ⟨h.pnd, by simp, ?_⟩
    intro x hx y hy heq
    simp only [List.mem_singleton] at hy
    subst hy
    obtain ⟨e, he, h1⟩ := List.mem_map.1 hx
    exact hpn e he (h1.trans heq)
  split
  · rename_i e he
    have he' : findW s b = some e := he
    obtain ⟨hew, heb⟩ := findW_some he'
    have hperm := (List.perm_cons_erase hew)
    have hpp : (blocksOf { s with pfs := s.pfs - 1, pfree := s.pfree.dropLast, wbusy := s.wbusy.erase e,
                                  wfree := s.wfree ++ [blk], pbusy := s.pbusy ++ [⟨b, e.blk, e.req, false⟩] }).Perm (blocksOf s) := by
      have h1 := hperm.map (·.blk)
      rw [List.perm_iff_count] at h1 ⊢
      intro a
      have := h1 a
      have h3 : List.count a s.pfree = List.count a s.pfree.dropLast + List.count a [blk] := by
        conv => lhs; rw [hsplit]
        rw [List.count_append]
      simp only [blocksOf, List.count_append, List.map_append, List.map_cons, List.map_nil, List.count_cons, List.count_nil] at this h3 ⊢
      omega
    refine h.move rfl rfl rfl rfl rfl (hpp.nodup_iff.2 h.nd) (fun x hx => h.lt x (hpp.mem_iff.1 hx)) ?_ ?_ ?_ ?_ ?_ h.res
    · intro x hx
      refine ⟨x, ?_, rfl, rfl, Or.inl rfl, rfl, Or.inl rfl⟩
      rcases ents_cases hx with ⟨y, hy, rfl⟩ | ⟨y, hy, rfl⟩ | ⟨y, hy, rfl⟩
      · exact mem_ents_w (List.mem_of_mem_erase hy)
      · rcases List.mem_append.1 hy with hy | hy
        · exact mem_ents_p hy
        · rw [List.mem_singleton] at hy
          subst hy
          have := mem_ents_w (s := s) hew
          simpa [wE, pE, heb, hst] using this
      · exact mem_ents_u hy
    · intro x hx
      left
      rcases ents_cases hx with ⟨y, hy, rfl⟩ | ⟨y, hy, rfl⟩ | ⟨y, hy, rfl⟩
      · rcases List.mem_cons.1 (hperm.mem_iff.1 hy) with h1 | h1
        · subst h1
          refine ⟨pE s.last s.pc ⟨b, y.blk, y.req, false⟩, ?_, rfl, rfl⟩
          simp only [entsOf, List.mem_append, List.map_append, List.map_cons, List.mem_cons]
          exact Or.inl (Or.inr (Or.inr (Or.inl trivial)))
        · exact ⟨wE s.last y, by simp only [entsOf, List.mem_append]; exact Or.inl (Or.inl (List.mem_map_of_mem h1)), rfl, rfl⟩
      · exact ⟨pE s.last s.pc y, by simp only [entsOf, List.mem_append, List.map_append]; exact Or.inl (Or.inr (Or.inl (List.mem_map_of_mem hy))), rfl, rfl⟩
      · exact ⟨_, mem_ents_u hy, rfl, rfl⟩
    · simp [h.pfs]
    · simpa using hpnd
    · intro b' r hh; rw [hpc] at hh; exact absurd hh (by simp)
  · refine ⟨?_, by simp [submit, h.pfs], by simpa [submit] using hpnd, ?_, h.res⟩
    · refine h.ci.submitRead (blk := blk) (b := b) (r := some true) (w := some (s.last b)) (Or.inl rfl) (Or.inl rfl) ?_ ?_
      · show ((s.wfree ++ s.pfree.dropLast ++ s.uidle) ++ blk :: (core s).ents.map (·.blk)).Perm
          ((s.wfree ++ s.pfree ++ s.uidle) ++ (core s).ents.map (·.blk))
        rw [List.perm_iff_count]
        intro a
        have h3 : List.count a s.pfree = List.count a s.pfree.dropLast + List.count a [blk] := by
          conv => lhs; rw [hsplit]
          rw [List.count_append]
        simp only [List.count_append, List.count_cons, List.count_nil] at h3 ⊢
        omega
      · show ((s.wbusy.map (wE s.last)) ++ (s.pbusy ++ [(⟨b, blk, s.nextReq, true⟩ : PEntry)]).map (pE s.last s.pc) ++ s.upend.map uE).Perm
          (_ :: (s.wbusy.map (wE s.last) ++ s.pbusy.map (pE s.last s.pc) ++ s.upend.map uE))
        simp only [List.map_append, List.map_cons, List.map_nil, List.append_assoc]
        refine List.Perm.trans ?_ List.perm_middle
        refine List.Perm.append_left _ ?_
        refine List.Perm.trans ?_ List.perm_middle
        refine List.Perm.append_left _ ?_
        simp [pE, hst, core]
    · intro b' r hh
      have : s.pc = .inval b' r := hh
      rw [hpc] at this; exact absurd this (by simp)

/-- Giving up the content of the prefetched block of `b`, with or without cancelling its read. -/
theorem SInv.invalCancel {s : St V} (h : SInv P s) {b : Nat} {r canc : Bool} (hpc : s.pc = .inval b r)
    {e : PEntry} (he : findP s b = some e) : SInv P (if e.rd && canc then Foxxll.Pool.cancel s e.req else s) := by
  obtain ⟨hmem, hb⟩ := findP_some he
  split
  · rename_i hc
    simp only [Bool.and_eq_true] at hc
    refine ⟨?_, h.pfs, h.pnd, h.pcb, h.res⟩
    have hE := mem_ents_p (s := s) hmem
    refine h.ci.cancelRead (r := e.req) ?_ ?_
    · intro x hx hid
      exact (h.ci.fact _ hE x hx hid).2.1 true (by simp [pE, hc.1])
    · intro f hf x hx hid hreq
      have h1 := (h.ci.fact _ hE x hx hid).1
      have h2 := (h.ci.fact f hf x hx (hid.trans hreq.symm)).1
      have : f = pE s.last s.pc e := blk_inj h.ci.ents_nd hf hE (h2.symm.trans h1)
      rw [this]
      simp [pE, hpc, stale, hb]
  · exact h

theorem SInv.setInval {s : St V} (h : SInv P s) (hpc : s.pc = .idle) {b : Nat} {e : PEntry} (he : findP s b = some e) (r : Bool) :
    SInv P { s with pc := .inval b r } := by
  have hst : ∀ b, stale s.pc b = false := stale_false (by rw [hpc]; simp)
  refine h.move rfl rfl rfl rfl rfl h.nd h.lt ?_ ?_ h.pfs h.pnd ?_ h.res
  · intro x hx
    rcases ents_cases hx with ⟨y, hy, rfl⟩ | ⟨y, hy, rfl⟩ | ⟨y, hy, rfl⟩
    · exact ⟨_, mem_ents_w hy, rfl, rfl, Or.inl rfl, rfl, Or.inl rfl⟩
    · refine ⟨_, mem_ents_p hy, rfl, rfl, Or.inl rfl, rfl, ?_⟩
      simp only [pE, hst]
      by_cases hc : stale (.inval b r) y.bid = true
      · simp [hc]
      · simp [hc]
    · exact ⟨_, mem_ents_u hy, rfl, rfl, Or.inl rfl, rfl, Or.inl rfl⟩
  · intro x hx
    left
    rcases ents_cases hx with ⟨y, hy, rfl⟩ | ⟨y, hy, rfl⟩ | ⟨y, hy, rfl⟩
    · exact ⟨_, mem_ents_w hy, rfl, rfl⟩
    · exact ⟨pE s.last (.inval b r) y, mem_ents_p (s := { s with pc := .inval b r }) hy, rfl, rfl⟩
    · exact ⟨_, mem_ents_u hy, rfl, rfl⟩
  · intro b' r' hh
    simp only [Pc.inval.injEq] at hh
    obtain ⟨h1, h2⟩ := findP_some he
    exact ⟨e, h1, h2.trans hh.1⟩

theorem SInv.invalBegin {s : St V} (h : SInv P s) (hpc : s.pc = .idle) (b : Nat) (canc r : Bool) : SInv P (invalBegin s b canc r) := by
  unfold Foxxll.Pool.invalBegin
  split
  · exact h
  · rename_i e he
    have h1 := (h.setInval hpc he r).invalCancel (canc := canc) (e := e) rfl he
    by_cases hc : (e.rd && canc) = true
    · simp only [hc, if_true] at h1 ⊢
      exact h1
    · simp only [hc, if_false] at h1 ⊢
      exact h1

theorem SInv.invalEnd {s s' : St V} (h : SInv P s) {b : Nat} {r : Bool} (hpc : s.pc = .inval b r)
    (hs : Foxxll.Pool.invalEnd s b r = .ok s') : SInv P s' := by
  unfold Foxxll.Pool.invalEnd at hs
  split at hs
  · simp at hs
  rename_i e he
  obtain ⟨hmem, hb⟩ := findP_some he
  by_cases hdone : isDone s e.req = true
  case neg => rw [if_neg hdone] at hs; simp at hs
  rw [if_pos hdone] at hs
  simp only [Res.ok.injEq] at hs
  have hperm := List.perm_cons_erase hmem
  have hnb : ∀ y ∈ s.pbusy.erase e, y.bid ≠ b := by
    intro y hy hyb
    have := (hperm.map (·.bid)).nodup_iff.1 h.pnd
    simp only [List.map_cons, List.nodup_cons, List.mem_map, not_exists, not_and] at this
    exact this.1 y hy (hyb.trans hb.symm)
  have hpp : (blocksOf { s with pfs := s.pfs + 1, pfree := s.pfree ++ [e.blk], pbusy := s.pbusy.erase e, pc := .idle }).Perm (blocksOf s) := by
    have h1 := hperm.map (·.blk)
    rw [List.perm_iff_count] at h1 ⊢
    intro a
    have := h1 a
    simp only [blocksOf, List.count_append, List.map_cons, List.count_cons, List.count_nil] at this ⊢
    omega
  have h1 : SInv P { s with pfs := s.pfs + 1, pfree := s.pfree ++ [e.blk], pbusy := s.pbusy.erase e, pc := .idle } := by
    refine h.move rfl rfl rfl rfl rfl (hpp.nodup_iff.2 h.nd) (fun x hx => h.lt x (hpp.mem_iff.1 hx)) ?_ ?_ ?_ ?_ ?_ h.res
    · intro x hx
      refine ⟨x, ?_, rfl, rfl, Or.inl rfl, rfl, Or.inl rfl⟩
      rcases ents_cases hx with ⟨y, hy, rfl⟩ | ⟨y, hy, rfl⟩ | ⟨y, hy, rfl⟩
      · exact mem_ents_w hy
      · have := mem_ents_p (s := s) (List.mem_of_mem_erase hy)
        simpa [pE, stale, hpc, hnb y hy] using this
      · exact mem_ents_u hy
    · intro x hx
      rcases ents_cases hx with ⟨y, hy, rfl⟩ | ⟨y, hy, rfl⟩ | ⟨y, hy, rfl⟩
      · exact Or.inl ⟨_, mem_ents_w hy, rfl, rfl⟩
      · rcases List.mem_cons.1 (hperm.mem_iff.1 hy) with h1 | h1
        · right; rw [h1]; exact hdone
        · left
          exact ⟨pE s.last .idle y, by simp only [entsOf, List.mem_append]; exact Or.inl (Or.inr (List.mem_map_of_mem h1)), rfl, rfl⟩
      · exact Or.inl ⟨_, mem_ents_u hy, rfl, rfl⟩
    · simp [h.pfs]
    · exact h.pnd.sublist ((List.erase_sublist).map _)
    · intro b' r' hh; exact absurd hh (by simp)
  subst hs
  split
  · exact h1.hint rfl b
  · exact h1

theorem SInv.read {s : St V} (h : SInv P s) (hpc : s.pc = .idle) {blk b : Nat} (hblk : blk ∈ s.uidle) :
    SInv P { (pread { s with uidle := s.uidle.erase blk } blk b).1 with
      upend := (pread { s with uidle := s.uidle.erase blk } blk b).1.upend ++
        [⟨(pread { s with uidle := s.uidle.erase blk } blk b).2.1, (pread { s with uidle := s.uidle.erase blk } blk b).2.2, b, s.last b⟩] } := by
  have hst : ∀ b, stale s.pc b = false := stale_false (by rw [hpc]; simp)
  have hpe := perm_erase_right hblk
  have hfP : findP { s with uidle := s.uidle.erase blk } b = findP s b := rfl
  have hfW : findW { s with uidle := s.uidle.erase blk } b = findW s b := rfl
  unfold pread
  rw [hfP, hfW]
  cases hP : findP s b with
  | some e =>
    simp only
    obtain ⟨hmem, hb⟩ := findP_some hP
    have hperm := List.perm_cons_erase hmem
    have hpp : (blocksOf { s with uidle := s.uidle.erase blk, pfs := s.pfs + 1, pfree := s.pfree ++ [blk], pbusy := s.pbusy.erase e,
                                  upend := s.upend ++ [⟨e.blk, e.req, b, s.last b⟩] }).Perm (blocksOf s) := by
      have h1 := hperm.map (·.blk)
      rw [List.perm_iff_count] at h1 hpe ⊢
      intro a
      have := h1 a
      have := hpe a
      simp only [blocksOf, List.count_append, List.map_append, List.map_cons, List.map_nil, List.count_cons, List.count_nil] at *
      omega
    refine h.move rfl rfl rfl rfl rfl (hpp.nodup_iff.2 h.nd) (fun x hx => h.lt x (hpp.mem_iff.1 hx)) ?_ ?_ ?_ ?_ ?_ h.res
    · intro x hx
      rcases ents_cases hx with ⟨y, hy, rfl⟩ | ⟨y, hy, rfl⟩ | ⟨y, hy, rfl⟩
      · exact ⟨_, mem_ents_w hy, rfl, rfl, Or.inl rfl, rfl, Or.inl rfl⟩
      · exact ⟨_, mem_ents_p (List.mem_of_mem_erase hy), rfl, rfl, Or.inl rfl, rfl, Or.inl rfl⟩
      · rcases List.mem_append.1 hy with hy | hy
        · exact ⟨_, mem_ents_u hy, rfl, rfl, Or.inl rfl, rfl, Or.inl rfl⟩
        · rw [List.mem_singleton] at hy
          subst hy
          exact ⟨_, mem_ents_p hmem, rfl, rfl, Or.inr rfl, by simp [uE, pE, hb], by simp [uE, pE, hst, hb]⟩
    · intro x hx
      left
      rcases ents_cases hx with ⟨y, hy, rfl⟩ | ⟨y, hy, rfl⟩ | ⟨y, hy, rfl⟩
      · exact ⟨_, mem_ents_w hy, rfl, rfl⟩
      · rcases List.mem_cons.1 (hperm.mem_iff.1 hy) with h1 | h1
        · subst h1
          exact ⟨uE ⟨y.blk, y.req, b, s.last b⟩, by simp [entsOf], rfl, rfl⟩
        · exact ⟨pE s.last s.pc y, by simp only [entsOf, List.mem_append]; exact Or.inl (Or.inr (List.mem_map_of_mem h1)), rfl, rfl⟩
      · exact ⟨uE y, by simp only [entsOf, List.mem_append, List.map_append]; exact Or.inr (Or.inl (List.mem_map_of_mem hy)), rfl, rfl⟩
    · simp [h.pfs]
    · exact h.pnd.sublist ((List.erase_sublist).map _)
    · intro b' r' hh
      have : s.pc = .inval b' r' := hh
      rw [hpc] at this; exact absurd this (by simp)
  | none =>
    simp only
    cases hW : findW s b with
    | some e =>
      simp only
      obtain ⟨hmem, hb⟩ := findW_some hW
      have hperm := List.perm_cons_erase hmem
      have hpp : (blocksOf { s with uidle := s.uidle.erase blk, wfree := s.wfree ++ [blk], wbusy := s.wbusy.erase e,
                                    upend := s.upend ++ [⟨e.blk, e.req, b, s.last b⟩] }).Perm (blocksOf s) := by
        have h1 := hperm.map (·.blk)
        rw [List.perm_iff_count] at h1 hpe ⊢
        intro a
        have := h1 a
        have := hpe a
        simp only [blocksOf, List.count_append, List.map_append, List.map_cons, List.map_nil, List.count_cons, List.count_nil] at *
        omega
      refine h.move rfl rfl rfl rfl rfl (hpp.nodup_iff.2 h.nd) (fun x hx => h.lt x (hpp.mem_iff.1 hx)) ?_ ?_ h.pfs h.pnd ?_ h.res
      · intro x hx
        rcases ents_cases hx with ⟨y, hy, rfl⟩ | ⟨y, hy, rfl⟩ | ⟨y, hy, rfl⟩
        · exact ⟨_, mem_ents_w (List.mem_of_mem_erase hy), rfl, rfl, Or.inl rfl, rfl, Or.inl rfl⟩
        · exact ⟨_, mem_ents_p hy, rfl, rfl, Or.inl rfl, rfl, Or.inl rfl⟩
        · rcases List.mem_append.1 hy with hy | hy
          · exact ⟨_, mem_ents_u hy, rfl, rfl, Or.inl rfl, rfl, Or.inl rfl⟩
          · rw [List.mem_singleton] at hy
            subst hy
            exact ⟨_, mem_ents_w hmem, rfl, rfl, Or.inr rfl, by simp [uE, wE, hb], by simp [uE, wE, hb]⟩
      · intro x hx
        left
        rcases ents_cases hx with ⟨y, hy, rfl⟩ | ⟨y, hy, rfl⟩ | ⟨y, hy, rfl⟩
        · rcases List.mem_cons.1 (hperm.mem_iff.1 hy) with h1 | h1
          · subst h1
            exact ⟨uE ⟨y.blk, y.req, b, s.last b⟩, by simp [entsOf], rfl, rfl⟩
          · exact ⟨wE s.last y, by simp only [entsOf, List.mem_append]; exact Or.inl (Or.inl (List.mem_map_of_mem h1)), rfl, rfl⟩
        · exact ⟨_, mem_ents_p hy, rfl, rfl⟩
        · exact ⟨uE y, by simp only [entsOf, List.mem_append, List.map_append]; exact Or.inr (Or.inl (List.mem_map_of_mem hy)), rfl, rfl⟩
      · intro b' r' hh
        have : s.pc = .inval b' r' := hh
        rw [hpc] at this; exact absurd this (by simp)
    | none =>
      simp only
      refine ⟨?_, h.pfs, h.pnd, ?_, h.res⟩
      · refine h.ci.submitRead (blk := blk) (b := b) (r := none) (w := some (s.last b)) (Or.inr rfl) (Or.inl rfl) ?_ ?_
        · show ((s.wfree ++ s.pfree ++ s.uidle.erase blk) ++ blk :: (core s).ents.map (·.blk)).Perm
            ((s.wfree ++ s.pfree ++ s.uidle) ++ (core s).ents.map (·.blk))
          rw [List.perm_iff_count] at hpe ⊢
          intro a
          have := hpe a
          simp only [List.count_append, List.count_cons, List.count_nil] at this ⊢
          omega
        · show ((s.wbusy.map (wE s.last)) ++ s.pbusy.map (pE s.last s.pc) ++ (s.upend ++ [(⟨blk, s.nextReq, b, s.last b⟩ : UEntry V)]).map uE).Perm
            (_ :: (s.wbusy.map (wE s.last) ++ s.pbusy.map (pE s.last s.pc) ++ s.upend.map uE))
          simp only [List.map_append, List.map_cons, List.map_nil]
          rw [← List.append_assoc]
          exact List.perm_append_comm.trans (List.Perm.refl _)
      · intro b' r' hh
        have : s.pc = .inval b' r' := hh
        rw [hpc] at this; exact absurd this (by simp)

theorem SInv.write {s : St V} (h : SInv P s) (hpc : s.pc = .idle) {blk b : Nat} (hblk : blk ∈ s.uidle)
    (hleg : ∀ e ∈ s.upend, e.bid = b → isDone s e.req = true) (cw : List Nat) (cp : Bool) :
    SInv P (Foxxll.Pool.invalBegin
      (wwrite { s with uidle := s.uidle.erase blk, last := upd s.last b (s.mem blk) } blk b cw) b cp true) := by
  have hst : ∀ b, stale s.pc b = false := stale_false (by rw [hpc]; simp)
  have hpe := perm_erase_right hblk
  have main : ∀ pc', (pc' = .idle ∧ findP s b = none ∨ pc' = .inval b true ∧ ∃ e, findP s b = some e) →
      SInv P { wwrite { s with uidle := s.uidle.erase blk, last := upd s.last b (s.mem blk) } blk b cw with pc := pc' } := by
    intro pc' hpc'
    have hPstale : ∀ y ∈ s.pbusy, stale pc' y.bid = decide (y.bid = b) := by
      intro y hy
      rcases hpc' with ⟨rfl, h2⟩ | ⟨rfl, e, he⟩
      · have := findP_none h2 y hy
        simp [stale, this]
      · simp only [stale]; rfl
    refine ⟨?_, h.pfs, h.pnd, ?_, h.res⟩
    · refine h.ci.submitWrite (blk := blk) (b := b)
        (dead := fun x => cw.contains x.id && s.wbusy.any (fun e => e.bid == some b && e.req == x.id))
        (ents0 := (s.wbusy.map (fun e => if e.bid = some b then { e with bid := none } else e)).map (wE (upd s.last b (s.mem blk))) ++
          s.pbusy.map (pE (upd s.last b (s.mem blk)) pc') ++ s.upend.map uE) ?_ ?_ ?_ ?_ ?_ ?_ ?_
      · intro x hx hd
        simp only [Bool.and_eq_true, List.any_eq_true, beq_iff_eq] at hd
        obtain ⟨_, y, hy, h1, h2⟩ := hd
        obtain ⟨_, f2, f3⟩ := h.ci.fact _ (mem_ents_w hy) x hx h2.symm
        exact ⟨f3 b h1, f2 false rfl⟩
      · show ((s.wfree ++ s.pfree ++ s.uidle.erase blk) ++ blk :: (core s).ents.map (·.blk)).Perm
            ((s.wfree ++ s.pfree ++ s.uidle) ++ (core s).ents.map (·.blk))
        rw [List.perm_iff_count] at hpe ⊢
        intro a
        have := hpe a
        simp only [List.count_append, List.count_cons, List.count_nil] at this ⊢
        omega
      · show _ = (s.wbusy.map (wE s.last) ++ s.pbusy.map (pE s.last s.pc) ++ s.upend.map uE).map (·.blk)
        simp only [List.map_append, map_wE_blk, map_pE_blk, map_uE_blk, List.map_map]
        congr 2
        apply List.map_congr_left
        intro e _
        simp only [Function.comp]
        split <;> rfl
      · intro x hx
        simp only [List.mem_append, List.mem_map] at hx
        rcases hx with (⟨_, ⟨y, hy, rfl⟩, rfl⟩ | ⟨y, hy, rfl⟩) | ⟨y, hy, rfl⟩
        · refine ⟨_, mem_ents_w hy, ?_⟩
          by_cases hb : y.bid = some b
          · simp [hb, wE]
          · refine ⟨by simp [hb, wE], by simp [hb, wE], by simp [hb, wE], Or.inl ?_⟩
            simp only [hb, if_false, wE, true_and]
            cases hy' : y.bid with
            | none => rfl
            | some b' =>
              have : b' ≠ b := fun hh => hb (by rw [hy', hh])
              simp [upd, this]
        · refine ⟨_, mem_ents_p hy, rfl, rfl, rfl, ?_⟩
          have h1 := hPstale y hy
          by_cases hb : y.bid = b
          · exact Or.inr (Or.inr ⟨rfl, by rw [decide_eq_true hb] at h1; simp [pE, h1]⟩)
          · exact Or.inl ⟨rfl, by simp [pE, h1, hb, hst, upd]⟩
        · exact ⟨_, mem_ents_u hy, rfl, rfl, rfl, Or.inl ⟨rfl, rfl⟩⟩
      · intro x hx
        rcases ents_cases hx with ⟨y, hy, rfl⟩ | ⟨y, hy, rfl⟩ | ⟨y, hy, rfl⟩
        · refine ⟨wE (upd s.last b (s.mem blk)) (if y.bid = some b then { y with bid := none } else y), ?_, ?_, ?_⟩
          · simp only [List.mem_append]
            exact Or.inl (Or.inl (List.mem_map_of_mem (List.mem_map.2 ⟨y, hy, rfl⟩)))
          · split <;> rfl
          · split <;> rfl
        · refine ⟨pE (upd s.last b (s.mem blk)) pc' y, ?_, rfl, rfl⟩
          simp only [List.mem_append]
          exact Or.inl (Or.inr (List.mem_map_of_mem hy))
        · refine ⟨uE y, ?_, rfl, rfl⟩
          simp only [List.mem_append]
          exact Or.inr (List.mem_map_of_mem hy)
      · intro x hx hb hw
        simp only [List.mem_append, List.mem_map] at hx
        rcases hx with (⟨_, ⟨y, hy, rfl⟩, rfl⟩ | ⟨y, hy, rfl⟩) | ⟨y, hy, rfl⟩
        · exfalso
          by_cases hb' : y.bid = some b
          · simp [hb', wE] at hb
          · simp [hb', wE] at hb
        · exfalso
          have h1 := hPstale y hy
          simp only [pE, Option.some.injEq] at hb
          exact hw (by rw [decide_eq_true hb] at h1; simp [pE, h1])
        · simp only [uE, Option.some.injEq] at hb
          rintro ⟨x, hx, h1, _⟩
          exact (isDone_iff s y.req).1 (hleg y hy hb) x hx h1
      · show ((s.wbusy.map (fun e : WEntry => if e.bid = some b then { e with bid := none } else e) ++
            [(⟨blk, s.nextReq, some b⟩ : WEntry)]).map
            (wE (upd s.last b (s.mem blk))) ++ s.pbusy.map (pE (upd s.last b (s.mem blk)) pc') ++ s.upend.map uE).Perm _
        simp only [List.map_append, List.map_cons, List.map_nil, List.append_assoc, List.singleton_append]
        refine List.perm_middle.trans ?_
        simp [wE, upd, core]
    · intro b' r' hh
      rcases hpc' with ⟨rfl, h2⟩ | ⟨rfl, e, he⟩
      · exact absurd hh (by simp)
      · simp only [Pc.inval.injEq] at hh
        obtain ⟨h1, h2⟩ := findP_some he
        exact ⟨e, h1, h2.trans hh.1⟩
  have hfP : findP (wwrite { s with uidle := s.uidle.erase blk, last := upd s.last b (s.mem blk) } blk b cw) b = findP s b := rfl
  unfold Foxxll.Pool.invalBegin
  rw [hfP]
  cases hP : findP s b with
  | none =>
    have h1 := main .idle (Or.inl ⟨rfl, hP⟩)
    rw [← hpc] at h1
    exact h1
  | some e =>
    have h1 := main (.inval b true) (Or.inr ⟨rfl, e, hP⟩)
    have h2 := h1.invalCancel (canc := cp) (e := e) rfl hP
    simp only
    by_cases hc : (e.rd && cp) = true
    · simp only [hc, if_true] at h2 ⊢
      exact h2
    · simp only [hc, if_false] at h2 ⊢
      exact h2

theorem step_inv {ordered : Bool} {s s' : St V} {op : Op V} (h : SInv (ordered = true) s) (hl : Legal s op) (hs : step ordered s op = .ok s') : SInv (ordered = true) s' := by
  cases op with
  | alloc => simp only [step] at hs; split at hs <;> simp at hs; subst hs; exact h.alloc
  | fill blk v => simp only [step] at hs; split at hs <;> simp at hs; subst hs; exact h.fillIdle hl v
  | write blk b cw cp =>
    simp only [step] at hs
    split at hs
    · rename_i hpc
      split at hs
      · simp at hs
      · simp only [Res.ok.injEq] at hs
        subst hs
        exact h.write hpc hl.1 hl.2 cw cp
    · simp at hs
  | hint b =>
    simp only [step] at hs
    split at hs <;> simp at hs
    rename_i hpc
    subst hs; exact h.hint hpc b
  | invalidate b c =>
    simp only [step] at hs
    split at hs <;> simp at hs
    rename_i hpc
    subst hs; exact h.invalBegin hpc b c false
  | cancelRead =>
    simp only [step] at hs
    split at hs
    · rename_i b r hpc
      split at hs
      · rename_i e he
        split at hs <;> simp at hs
        rename_i hrd
        subst hs
        have := h.invalCancel (canc := true) hpc he
        simpa [hrd] using this
      · simp at hs
    · simp at hs
  | read blk b =>
    simp only [step] at hs
    split at hs <;> simp at hs
    rename_i hpc
    subst hs
    exact h.read hpc hl
  | steal c polled =>
    simp only [step] at hs
    split at hs
    · split at hs <;> simp at hs
      rename_i s1 p hw
      subst hs
      exact wsteal_inv h hw
    · simp at hs
  | add blk => simp only [step] at hs; split at hs <;> simp at hs; subst hs; exact h.add hl
  | stealP =>
    simp only [step] at hs
    split at hs
    · split at hs <;> simp at hs
      rename_i p hp
      subst hs
      exact h.stealP hp
    · simp at hs
  | addP blk => simp only [step] at hs; split at hs <;> simp at hs; subst hs; exact h.addP hl
  | resizeW n =>
    simp only [step] at hs
    split at hs <;> simp at hs
    rename_i hpc
    subst hs; exact h.wresize hpc n
  | resizeP n => simp only [step] at hs; split at hs <;> simp at hs; subst hs; exact h.presize n
  | collect i =>
    simp only [step] at hs
    split at hs
    · split at hs
      · simp at hs
      · split at hs <;> simp at hs
        rename_i e he hd
        subst hs
        exact h.collect he hd
    · simp at hs
  | work c polled =>
    simp only [step] at hs
    split at hs
    · simp at hs
    · rename_i hpc; exact h.invalEnd hpc hs
    · rename_i hpc
      simp only [Res.ok.injEq] at hs
      subst hs
      exact h.permIdle rfl rfl rfl rfl rfl rfl rfl rfl (by simp [hpc]) rfl (List.Perm.refl _) rfl h.pfs
    · rename_i k hpc
      split at hs <;> simp at hs
      rename_i s1 p hw
      subst hs
      refine wsteal_drop h hw (by simp) ?_
      have : s1.pc = s.pc := by
        unfold wsteal at hw
        split at hw
        · simp at hw
        split at hw
        · simp at hw; rw [← hw.1]
        · split at hw
          · simp at hw
          split at hw
          · simp at hw
          split at hw
          · simp at hw; rw [← hw.1]
          · simp at hw
      rw [this, hpc]
      simp
  | serve r =>
    simp only [step] at hs
    split at hs
    · simp at hs
    split at hs
    · rename_i i hi hm
      split at hs
      · simp at hs
      · rename_i x hx
        have := h.serve hx (fun ho => by rw [ho] at hm; exact hm)
        split at hs <;> rename_i hrd
        · simp only [Res.ok.injEq] at hs; subst hs; simpa [hrd] using this
        · simp only [Res.ok.injEq] at hs; subst hs; simpa [hrd] using this
    · simp at hs

theorem reach_inv {ordered : Bool} {s : St V} (h : Reach ordered s) : SInv (ordered = true) s := by
  induction h with
  | start nw np mem disk => exact SInv.start nw np mem disk
  | next op _ hl hs ih => exact step_inv ih hl hs

end Foxxll.Pool

namespace Foxxll.Pool

variable {V : Type}

theorem wsize_hint (s : St V) (b : Nat) : wsize (hint s b) = wsize s := by
  unfold hint
  split
  · rfl
  split
  · split
    · rfl
    · simp only
      split
      · rename_i e he
        have hm : e ∈ s.wbusy := (findW_some (s := s) he).1
        have := List.length_erase_of_mem hm
        have := List.length_pos_of_mem hm
        simp only [wsize, List.length_append, List.length_cons, List.length_nil]
        omega
      · rfl
  · rfl

theorem psize_hint (s : St V) (b : Nat) : psize (hint s b) = psize s := by
  unfold hint
  split
  · rfl
  split
  · split
    · rfl
    · simp only
      split
      · simp only [psize, List.length_append, List.length_cons, List.length_nil]
        omega
      · simp only [psize, submit, List.length_append, List.length_cons, List.length_nil]
        omega
  · rfl

theorem sizes_invalBegin (s : St V) (b : Nat) (c r : Bool) :
    wsize (invalBegin s b c r) = wsize s ∧ psize (invalBegin s b c r) = psize s := by
  unfold invalBegin
  split
  · exact ⟨rfl, rfl⟩
  · simp only
    split <;> exact ⟨rfl, rfl⟩

theorem sizes_invalEnd {s s' : St V} {b : Nat} {r : Bool} (h : invalEnd s b r = .ok s') :
    wsize s' = wsize s ∧ psize s' = psize s := by
  unfold invalEnd at h
  split at h
  · simp at h
  rename_i e he
  split at h
  · simp only [Res.ok.injEq] at h
    subst h
    have hm := (findP_some he).1
    have h1 := List.length_erase_of_mem hm
    have h2 := List.length_pos_of_mem hm
    split
    · rw [wsize_hint, psize_hint]
      refine ⟨rfl, ?_⟩
      simp only [psize]
      omega
    · refine ⟨rfl, ?_⟩
      simp only [psize]
      omega
  · simp at h

theorem sizes_wsteal {s s' : St V} {c : Option Nat} {polled : List Nat} {p : Nat} (h : wsteal s c polled = .ok (s', p)) :
    wsize s' + 1 = wsize s ∧ psize s' = psize s ∧ s'.pc = s.pc := by
  unfold wsteal at h
  split at h
  · simp at h
  split at h
  · rename_i q hq
    simp only [Res.ok.injEq, Prod.mk.injEq] at h
    obtain ⟨rfl, rfl⟩ := h
    have := getLast?_split hq
    refine ⟨?_, rfl, rfl⟩
    have h2 : s.wfree.length = s.wfree.dropLast.length + 1 := by
      conv => lhs; rw [this]
      simp
    simp only [wsize]
    omega
  · split at h
    · simp at h
    split at h
    · simp at h
    rename_i c' _ e he
    split at h
    · simp only [Res.ok.injEq, Prod.mk.injEq] at h
      obtain ⟨rfl, rfl⟩ := h
      refine ⟨?_, rfl, rfl⟩
      obtain ⟨hlt, _⟩ := List.getElem?_eq_some_iff.1 he
      have h1 := (List.filter_append_perm (fun x : WEntry => polled.contains x.req) (s.wbusy.eraseIdx c')).length_eq
      rw [List.length_append, List.length_eraseIdx_of_lt hlt] at h1
      simp only [wsize, List.length_append, List.length_map]
      omega
    · simp at h

theorem sizes_pread (s : St V) (blk b : Nat) :
    wsize (pread s blk b).1 = wsize s ∧ psize (pread s blk b).1 = psize s := by
  unfold pread
  split
  · rename_i e he
    have hm := (findP_some he).1
    have h1 := List.length_erase_of_mem hm
    have h2 := List.length_pos_of_mem hm
    refine ⟨rfl, ?_⟩
    simp only [psize]
    omega
  · split
    · rename_i e he
      have hm := (findW_some he).1
      have h1 := List.length_erase_of_mem hm
      have h2 := List.length_pos_of_mem hm
      refine ⟨?_, rfl⟩
      simp only [wsize, List.length_append, List.length_cons, List.length_nil]
      omega
    · exact ⟨rfl, rfl⟩

theorem sizes_wwrite (s : St V) (blk b : Nat) (cw : List Nat) :
    wsize (wwrite s blk b cw) = wsize s + 1 ∧ psize (wwrite s blk b cw) = psize s := by
  refine ⟨?_, rfl⟩
  simp only [wwrite, dropStale, submit, wsize, List.length_append, List.length_map, List.length_cons, List.length_nil]
  omega

end Foxxll.Pool
