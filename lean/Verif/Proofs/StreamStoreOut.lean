import Verif.Proofs.StreamStoreEnv
import Verif.Proofs.Streams
/-
Invariant of an output stream on top of the store.
-/
set_option linter.unusedSimpArgs false

namespace Foxxll.E2E
open Foxxll

variable {α : Type} {k : Queue.Kind} {qid : Nat → Nat} {cfgs : List (Nat × Bool)}

/-! ### The writer -/

theorem submitted_none {w w' : BufWriter.St (List α)} (h : w'.busy.length ≤ w.busy.length) : submitted w w' = none := by
  simp [submitted, List.drop_eq_nil_of_le h]

theorem submitted_append {w w' : BufWriter.St (List α)} {x : Nat} (h : w'.busy = w.busy ++ [x]) : submitted w w' = some x := by
  simp [submitted, h]

/-- What a step inside of a method of the writer changes. -/
structure Work (n : Nat) (s s' : BufWriter.St (List α)) : Prop where
  bufs : s'.bufs = s.bufs
  tr : s'.transferred = s.transferred
  cases : (submitted s s' = none ∧ s'.reqs = s.reqs ∧ ∀ x ∈ s'.busy, x ∈ s.busy) ∨
    ∃ x, submitted s s' = some x ∧ x < n ∧ x ∉ s.busy ∧ (∀ bid, s.reqs x ≠ some (bid, false)) ∧
      s'.reqs = BufWriter.upd s.reqs x (some (s'.bids x, false)) ∧ s'.busy = s.busy ++ [x]

theorem submitOne_work {n wbs : Nat} {s s' : BufWriter.St (List α)} (hi : BufWriter.Inv n wbs s) {c : Nat}
    (h : BufWriter.submitOne s c = some s') : Work n s s' := by
  unfold BufWriter.submitOne at h
  split at h
  · exact absurd h (by simp)
  · rename_i e rest hpop
    obtain ⟨hperm, _⟩ := BufWriter.popMin_spec hpop
    have hmem : e.2 ∈ s.batch.map (·.2) := List.mem_map_of_mem (hperm.mem_iff.2 (by simp))
    have hnd := hi.nd
    unfold BufWriter.places at hnd
    split at h
    · exact absurd h (by simp)
    · rename_i hr
      simp only [Option.some.injEq] at h
      subst h
      refine ⟨rfl, rfl, .inr ⟨e.2, submitted_append rfl, hi.lt _ ?_, ?_, ?_, rfl, rfl⟩⟩
      · unfold BufWriter.places; simp only [List.mem_append]; exact .inr (.inr (.inr (.inl hmem)))
      · intro hb
        have h1 := (List.nodup_append.1 (List.nodup_append.1 (List.nodup_append.1 hnd).2.1).2.1).2.2
        exact h1 _ hb _ (List.mem_append.2 (.inl hmem)) rfl
      · intro bid hb
        exact hr bid hb

theorem eraseIdx_mem {l : List Nat} {i : Nat} : ∀ x ∈ l.eraseIdx i, x ∈ l := fun _ h => List.mem_of_mem_eraseIdx h

theorem work_work {n wbs : Nat} {s s' : BufWriter.St (List α)} (hi : BufWriter.Inv n wbs s) {p : Option Nat} {c : Nat}
    (h : BufWriter.work n wbs s p c = some s') : Work n s s' := by
  have plain : ∀ {s' : BufWriter.St (List α)}, s'.bufs = s.bufs → s'.transferred = s.transferred → s'.reqs = s.reqs → s'.busy.length ≤ s.busy.length →
      (∀ x ∈ s'.busy, x ∈ s.busy) → Work n s s' :=
    fun h1 h2 h3 h4 h5 => ⟨h1, h2, .inl ⟨submitted_none h4, h3, h5⟩⟩
  unfold BufWriter.work at h
  split at h
  · exact absurd h (by simp)
  · split at h <;> (simp only [Option.some.injEq] at h; subst h; exact plain rfl rfl rfl (Nat.le_refl _) (fun _ h => h))
  · split at h
    · simp only [Option.some.injEq] at h; subst h; exact plain rfl rfl rfl (Nat.le_refl _) (fun _ h => h)
    · exact submitOne_work hi h
  · obtain ⟨s1, h1, h2⟩ := Option.bind_eq_some_iff.1 h
    have a1 : s1.bufs = s.bufs ∧ s1.transferred = s.transferred ∧ s1.reqs = s.reqs ∧ s1.busy.length ≤ s.busy.length ∧ ∀ x ∈ s1.busy, x ∈ s.busy := by
      cases p with
      | none => simp only [BufWriter.pollStage, Option.some.injEq] at h1; subst h1; exact ⟨rfl, rfl, rfl, Nat.le_refl _, fun _ h => h⟩
      | some i =>
        simp only [BufWriter.pollStage] at h1
        split at h1
        · exact absurd h1 (by simp)
        · split at h1
          · simp only [Option.some.injEq] at h1; subst h1
            exact ⟨rfl, rfl, rfl, by simp only [List.length_eraseIdx]; split <;> omega, eraseIdx_mem⟩
          · exact absurd h1 (by simp)
    have a2 : s'.bufs = s1.bufs ∧ s'.transferred = s1.transferred ∧ s'.reqs = s1.reqs ∧ s'.busy.length ≤ s1.busy.length ∧ ∀ x ∈ s'.busy, x ∈ s1.busy := by
      unfold BufWriter.takeStage at h2
      split at h2
      · simp only [Option.some.injEq] at h2; subst h2; exact ⟨rfl, rfl, rfl, Nat.le_refl _, fun _ h => h⟩
      · split at h2
        · exact absurd h2 (by simp)
        · split at h2
          · simp only [Option.some.injEq] at h2; subst h2
            exact ⟨rfl, rfl, rfl, by simp only [BufWriter.handOut, List.length_eraseIdx]; split <;> omega, eraseIdx_mem⟩
          · exact absurd h2 (by simp)
    exact plain (a2.1.trans a1.1) (a2.2.1.trans a1.2.1) (a2.2.2.1.trans a1.2.2.1) (Nat.le_trans a2.2.2.2.1 a1.2.2.2.1)
      (fun x hx => a1.2.2.2.2 x (a2.2.2.2.2 x hx))
  · split at h
    · simp only [Option.some.injEq] at h; subst h; exact plain rfl rfl rfl (Nat.le_refl _) (fun _ h => h)
    · exact submitOne_work hi h
  · split at h
    · simp only [Option.some.injEq] at h; subst h; exact plain rfl rfl rfl (Nat.zero_le _) (by simp)
    · exact absurd h (by simp)

theorem filterMap_inj {β γ : Type} {f : Nat → Option β} {g : β → γ} : ∀ {l : List Nat}, ((l.filterMap f).map g).Nodup →
    ∀ {a b : Nat} {x y : β}, a ∈ l → b ∈ l → f a = some x → f b = some y → g x = g y → a = b := by
  intro l
  induction l with
  | nil => intro _ a b x y ha; simp at ha
  | cons c l ih =>
    intro hn a b x y ha hb hx hy hg
    have hsub : ∀ {a : Nat} {x : β}, a ∈ l → f a = some x → g x ∈ (l.filterMap f).map g := fun h1 h2 =>
      List.mem_map_of_mem (List.mem_filterMap.2 ⟨_, h1, h2⟩)
    have hn' : ((l.filterMap f).map g).Nodup := by
      cases hc : f c with
      | none => rw [List.filterMap_cons_none hc] at hn; exact hn
      | some z => rw [List.filterMap_cons_some hc, List.map_cons] at hn; exact (List.nodup_cons.1 hn).2
    simp only [List.mem_cons] at ha hb
    rcases ha with rfl | ha <;> rcases hb with rfl | hb
    · rfl
    · rw [List.filterMap_cons_some hx, List.map_cons] at hn
      exact absurd (hg ▸ hsub hb hy) (List.nodup_cons.1 hn).1
    · rw [List.filterMap_cons_some hy, List.map_cons] at hn
      exact absurd (hg ▸ hsub ha hx) (List.nodup_cons.1 hn).1
    · exact ih hn' ha hb hx hy hg

/-- The blocks of the writes transferred and pending are different blocks of the stream. -/
structure Distinct (c : Stream.OCfg) (w : BufWriter.St (List α)) : Prop where
  mem : ∀ b bid, w.reqs b = some (bid, false) → bid ∈ c.bids
  tr : ∀ b bid v, w.reqs b = some (bid, false) → (bid, v) ∉ w.transferred
  two : ∀ b b' bid, w.reqs b = some (bid, false) → w.reqs b' = some (bid, false) → b = b'
  trm : ∀ bid v, (bid, v) ∈ w.transferred → bid ∈ c.bids

theorem distinct {c : Stream.OCfg} (hs : 0 < c.size) (hn : c.bids.Nodup) {s : Stream.OSt α} (hr : Stream.OReach c s) : Distinct c s.w := by
  have hi := Stream.oreach_inv hs hr
  have hw := BufWriter.reach_inv (Stream.wbs_pos c) BufWriter.legal1_legal hi.reach
  have hlog := hw.log
  have hnd : (s.w.written.map (·.1)).Nodup := by rw [hi.bids]; exact hn.sublist (List.take_sublist _ _)
  have hnd2 := (hlog.map (·.1)).nodup_iff.1 hnd
  rw [List.map_append, List.map_append] at hnd2
  have hin : ∀ bid v, (bid, v) ∈ s.w.transferred ++ (BufWriter.pending s.w ++ (BufWriter.batched s.w ++ BufWriter.curW s.w)) → bid ∈ c.bids := by
    intro bid v h
    have := List.mem_map_of_mem (f := (·.1)) (hlog.mem_iff.2 h)
    rw [hi.bids] at this
    exact List.mem_of_mem_take this
  have hpm : ∀ b bid, s.w.reqs b = some (bid, false) → b ∈ s.w.busy ∧ BufWriter.pendOf s.w b = some (bid, s.w.bufs b) := by
    intro b bid h
    exact ⟨hw.pend b bid h, by simp [BufWriter.pendOf, h]⟩
  have hpp : ∀ b bid, s.w.reqs b = some (bid, false) → (bid, s.w.bufs b) ∈ BufWriter.pending s.w := by
    intro b bid h
    exact List.mem_filterMap.2 ⟨b, (hpm b bid h).1, (hpm b bid h).2⟩
  refine ⟨?_, ?_, ?_, ?_⟩
  · intro b bid h
    exact hin bid (s.w.bufs b) (by simp [hpp b bid h])
  · intro b bid v h hc
    have h1 := (List.nodup_append.1 hnd2).2.2
    exact h1 bid (List.mem_map.2 ⟨_, hc, rfl⟩) bid (List.mem_append.2 (.inl (List.mem_map.2 ⟨_, hpp b bid h, rfl⟩))) rfl
  · intro b b' bid h h'
    have h1 := (List.nodup_append.1 (List.nodup_append.1 hnd2).2.1).1
    exact filterMap_inj h1 (hpm b bid h).1 (hpm b' bid h').1 (hpm b bid h).2 (hpm b' bid h').2 rfl
  · intro bid v h
    exact hin bid v (by simp [h])

/-! ### The store -/

theorem blockAt_inj {raw : Nat} {b b' : BufWriter.Bid} (h : blockAt raw b = blockAt raw b') : b = b' := by
  cases b; cases b'
  simp only [blockAt, Mgr.Bid.mk.injEq, Mgr.Storage.managed.injEq] at h
  simp [h.1, h.2.1]

theorem of_foreign {bs : List Mgr.Bid} {lo hi : Nat} {d : Store.St} {h : Store.Hist} {op : Store.Op} (hf : Foreign bs lo hi d op) {b : Mgr.Bid}
    (hb : b ∈ bs) : (h.next d op).of b = h.of b := by
  cases op with
  | mgr op =>
    cases op with
    | new f o out => rfl
    | delete c =>
      have hne : b ≠ c := fun e => hf (e ▸ hb)
      simp only [Store.Hist.next, Store.Hist.of, List.filter_filter]
      congr 1
      funext e
      by_cases h1 : e.b = b
      · subst h1; simp [hne]
      · simp [h1]
  | fill buf data => rfl
  | io r w c buf =>
    have hne : c ≠ b := fun e => hf.1 (e ▸ hb)
    cases w with
    | false => rfl
    | true => simp [Store.Hist.next, Store.Hist.of, List.filter_cons, hne]
  | cancel r => rfl
  | run i qop os => rfl

/-- A write of the stream that has not been canceled, and is the latest of its block. -/
def Put (qid : Nat → Nat) (L : Layout α) (bids : List BufWriter.Bid) (d : Store.St) (h : Store.Hist) (bid : BufWriter.Bid) (v : List α) (r : Nat) : Prop :=
  bid ∈ bids ∧ r ∉ (d.qs (qid bid.file)).cancelled ∧ (∃ q, d.reqs r = some q ∧ q.disk = bid.file ∧ q.On (blockAt L.raw bid)) ∧
    ∃ e tl, h.of (blockAt L.raw bid) = e :: tl ∧ e.r = r ∧ L.dec e.data = v

theorem Put.foreign {L : Layout α} {bids : List BufWriter.Bid} {d d' : Store.St} {h : Store.Hist} {bid : BufWriter.Bid} {v : List α} {r : Nat} {op : Store.Op}
    {lo hi : Nat} (hp : Put qid L bids d h bid v r) (E : Store.Eff qid d d' op) (hf : Foreign (bids.map (blockAt L.raw)) lo hi d op) :
    Put qid L bids d' (h.next d op) bid v r := by
  obtain ⟨h1, h2, ⟨q, h3, h4, h5⟩, h6⟩ := hp
  refine ⟨h1, ?_, ⟨q, E.req r q h3, h4, h5⟩, ?_⟩
  · intro hc
    rcases E.can' _ _ hc with h | h
    · exact h2 h
    · subst h
      exact hf q h3 _ (List.mem_map_of_mem h1) h5
  · rw [of_foreign hf (List.mem_map_of_mem h1)]; exact h6

/-- Another write of the stream. -/
theorem Put.other {L : Layout α} {bids : List BufWriter.Bid} {d d' : Store.St} {h : Store.Hist} {bid bid' : BufWriter.Bid} {v : List α} {r r' buf : Nat}
    (hp : Put qid L bids d h bid v r) (E : Store.Eff qid d d' (.io r' true (blockAt L.raw bid') buf)) (hne : bid' ≠ bid) :
    Put qid L bids d' (h.next d (.io r' true (blockAt L.raw bid') buf)) bid v r := by
  obtain ⟨h1, h2, ⟨q, h3, h4, h5⟩, h6⟩ := hp
  refine ⟨h1, ?_, ⟨q, E.req r q h3, h4, h5⟩, ?_⟩
  · intro hc
    rcases E.can' _ _ hc with h | h
    · exact h2 h
    · cases h
  · have : blockAt L.raw bid' ≠ blockAt L.raw bid := fun e => hne (blockAt_inj e)
    have e : (h.next d (.io r' true (blockAt L.raw bid') buf)).of (blockAt L.raw bid) = h.of (blockAt L.raw bid) := by
      simp [Store.Hist.next, Store.Hist.of, List.filter_cons, this]
    rw [e]; exact h6

/-! ### Both together -/

structure OI (k : Queue.Kind) (qid : Nat → Nat) (cfgs : List (Nat × Bool)) (L : Layout α) (c : Stream.OCfg) (base : Nat) (s : OSys α) (h : Store.Hist) :
    Prop where
  life : Store.Life k qid cfgs (Store.Orderly k) s.d h
  reach : Stream.OReach c s.o
  live : ∀ b ∈ c.bids, blockAt L.raw b ∈ s.d.m.live
  rd : ∀ r q, Store.Pending qid s.d r → s.d.reqs r = some q → q.write = false → ∀ b ∈ c.bids, ¬ q.On (blockAt L.raw b)
  mem : ∀ b, b < c.n → (s.d.mem (base + b)).length = L.raw ∧ L.dec (s.d.mem (base + b)) = s.o.w.bufs b
  own : ∀ r q, Store.Pending qid s.d r → s.d.reqs r = some q → base ≤ q.buf → q.buf < base + c.n →
    q.write = true ∧ ∃ b bid, q.buf = base + b ∧ r = s.rid b ∧ s.o.w.reqs b = some (bid, false)
  pen : ∀ b bid, s.o.w.reqs b = some (bid, false) → Put qid L c.bids s.d h bid (s.o.w.bufs b) (s.rid b)
  tr : ∀ bid v, (bid, v) ∈ s.o.w.transferred → ∃ r, Put qid L c.bids s.d h bid v r ∧ ¬ Store.Pending qid s.d r ∧
    (r ∉ s.d.failed ∨ ∃ b ∈ s.o.w.busy, s.rid b = r ∧ ∃ bid', s.o.w.reqs b = some (bid', true))

/-- A step of the workers or of other clients. -/
theorem OI.env {L : Layout α} (hL : L.Ok) {c : Stream.OCfg} {base : Nat} {s : OSys α} {h : Store.Hist} (I : OI k qid cfgs L c base s h)
    {op : Store.Op} (ha : Store.Allowed k qid s.d op) (ho : Store.Orderly k op) (hf : Foreign (c.bids.map (blockAt L.raw)) base (base + c.n) s.d op)
    {d' : Store.St} (hs : Store.step k qid s.d op = some d') : OI k qid cfgs L c base { s with d := d' } (h.next s.d op) := by
  have J := Store.life_inv I.life
  have E := Store.step_eff J ha hs
  refine ⟨.next op I.life ha ho hs, I.reach, ?_, ?_, ?_, ?_, ?_, ?_⟩
  · intro b hb
    rcases E.live _ (I.live b hb) with h | h
    · exact h
    · subst h
      exact absurd (List.mem_map_of_mem hb) hf
  · intro r q hp hq hw b hb hon
    rcases E.pending hq hp with ⟨h1, h2⟩ | ⟨w, b', buf, h1, h2, h3⟩
    · exact I.rd r q h2 h1 hw b hb hon
    · subst h1
      have hne : b' ≠ blockAt L.raw b := fun e => hf.1 (e ▸ List.mem_map_of_mem hb)
      have := Store.live_apart J.mgr ha.2.1 (I.live b hb) hne (by rw [h2, hon.1])
      have e1 : b'.off = (blockAt L.raw b).off := by rw [hon.2.1, h3]
      have e2 : b'.size = (blockAt L.raw b).size := by rw [hon.2.2, h3]
      have e3 : (blockAt L.raw b).size = L.raw := rfl
      have := hL.raw
      unfold Store.Apart at *
      omega
  · intro b hb
    obtain ⟨h1, h2⟩ := I.mem b hb
    rcases E.mem (base + b) with h | ⟨data, h, _⟩ | ⟨_, i, r, q, os, _, _, h5, h6, _, h8, h9⟩
    · show (d'.mem (base + b)).length = _ ∧ L.dec (d'.mem (base + b)) = _
      rw [h]; exact ⟨h1, h2⟩
    · subst h
      exact absurd ⟨Nat.le_add_right _ _, Nat.add_lt_add_left hb _⟩ hf
    · have := (I.own r q h6 h5 (by omega) (by omega)).1
      rw [h8] at this; cases this
  · intro r q hp hq h1 h2
    rcases E.pending hq hp with ⟨h3, h4⟩ | ⟨w, b', buf, h3, h4, h5⟩
    · exact I.own r q h4 h3 h1 h2
    · subst h3
      rw [h5] at h1 h2
      exact absurd ⟨h1, h2⟩ hf.2
  · intro b bid hr
    exact (I.pen b bid hr).foreign E hf
  · intro bid v hm
    obtain ⟨r, h1, h2, h3⟩ := I.tr bid v hm
    obtain ⟨q, h4, _⟩ := h1.2.2.1
    refine ⟨r, h1.foreign E hf, E.finished h4 h2, ?_⟩
    rcases h3 with h3 | h3
    · refine .inl ?_
      intro hc
      rcases E.fail r hc with h | ⟨h, _⟩
      · exact h3 h
      · exact h2 h
    · exact .inr h3

/-- A step of the stream that changes neither buffers nor requests. -/
theorem OI.quiet {L : Layout α} {c : Stream.OCfg} {base : Nat} {s : OSys α} {h : Store.Hist} (I : OI k qid cfgs L c base s h) {o : Stream.OSt α}
    (hr : Stream.OReach c o) (h1 : o.w.bufs = s.o.w.bufs) (h2 : o.w.reqs = s.o.w.reqs) (h3 : o.w.transferred = s.o.w.transferred)
    (h4 : ∀ b ∈ s.o.w.busy, b ∈ o.w.busy ∨ s.rid b ∉ s.d.failed) : OI k qid cfgs L c base { s with o := o } h := by
  refine ⟨I.life, hr, I.live, I.rd, ?_, ?_, ?_, ?_⟩
  · intro b hb
    show _ ∧ _ = o.w.bufs b
    rw [h1]; exact I.mem b hb
  · intro r q hp hq a1 a2
    obtain ⟨a3, b, bid, a4, a5, a6⟩ := I.own r q hp hq a1 a2
    exact ⟨a3, b, bid, a4, a5, by show o.w.reqs b = _; rw [h2]; exact a6⟩
  · intro b bid hb
    change o.w.reqs b = _ at hb
    show Put qid L c.bids s.d h bid (o.w.bufs b) (s.rid b)
    rw [h2] at hb; rw [h1]; exact I.pen b bid hb
  · intro bid v hm
    change (bid, v) ∈ o.w.transferred at hm
    rw [h3] at hm
    obtain ⟨r, a1, a2, a3⟩ := I.tr bid v hm
    refine ⟨r, a1, a2, ?_⟩
    rcases a3 with a3 | ⟨b, a3, a4, a5⟩
    · exact .inl a3
    · rcases h4 b a3 with h | h
      · exact .inr ⟨b, h, a4, by show ∃ bid', o.w.reqs b = _; rw [h2]; exact a5⟩
      · exact .inl (a4 ▸ h)

/-- A request becomes ready. -/
theorem OI.done {L : Layout α} {c : Stream.OCfg} (hs : 0 < c.size) {base : Nat} {s : OSys α} {h : Store.Hist} (I : OI k qid cfgs L c base s h)
    {b : Nat} {q : Store.Req} (hq : s.d.reqs (s.rid b) = some q) (hsv : s.rid b ∈ (s.d.qs (qid q.disk)).served) {o : Stream.OSt α}
    (ho : Stream.oStep c s.o (.done b) = .ok o) : OI k qid cfgs L c base { s with o := o } h := by
  have hr := Stream.OReach.next _ I.reach ho
  simp only [Stream.oStep, BufWriter.step] at ho
  split at ho
  · cases ho
  · rename_i w hw
    injection ho with ho
    subst ho
    split at hw
    · rename_i bid hb
      injection hw with hw
      subst hw
      have hnp : ¬ Store.Pending qid s.d (s.rid b) := by
        rintro ⟨q2, p1, p2, _⟩
        rw [hq] at p1; injection p1 with p1; subst p1
        exact p2 hsv
      have hoi := Stream.oreach_inv hs I.reach
      have hinv := BufWriter.reach_inv (Stream.wbs_pos c) BufWriter.legal1_legal hoi.reach
      refine ⟨I.life, hr, I.live, I.rd, I.mem, ?_, ?_, ?_⟩
      · intro r q' hp hq' a1 a2
        obtain ⟨a3, b', bid', a4, a5, a6⟩ := I.own r q' hp hq' a1 a2
        refine ⟨a3, b', bid', a4, a5, ?_⟩
        by_cases e : b' = b
        · subst e; subst a5; exact absurd hp hnp
        · simp [BufWriter.upd, e, a6]
      · intro b' bid' hb'
        simp only [BufWriter.upd] at hb'
        split at hb'
        · simp at hb'
        · exact I.pen b' bid' hb'
      · intro bid' v hm
        simp only [List.mem_append, List.mem_singleton, Prod.mk.injEq] at hm
        rcases hm with hm | ⟨rfl, rfl⟩
        · obtain ⟨r, a1, a2, a3⟩ := I.tr bid' v hm
          refine ⟨r, a1, a2, ?_⟩
          rcases a3 with a3 | ⟨b', a3, a4, bid2, a5⟩
          · exact .inl a3
          · refine .inr ⟨b', a3, a4, bid2, ?_⟩
            by_cases e : b' = b
            · subst e; rw [hb] at a5; simp at a5
            · simp [BufWriter.upd, e, a5]
        · exact ⟨s.rid b, I.pen b bid' hb, hnp, .inr ⟨b, hinv.pend b bid' hb, rfl, bid', by simp [BufWriter.upd]⟩⟩
    · cases hw

/-- A write is submitted. -/
theorem OI.submit {L : Layout α} {c : Stream.OCfg} (hs : 0 < c.size) (hn : c.bids.Nodup) {base : Nat} {s : OSys α} {h : Store.Hist}
    (I : OI k qid cfgs L c base s h) {o : Stream.OSt α} (hr : Stream.OReach c o) (h1 : o.w.bufs = s.o.w.bufs)
    (h3 : o.w.transferred = s.o.w.transferred) {x r : Nat} (hx : x < c.n) (hxb : x ∉ s.o.w.busy) (hxr : ∀ bid, s.o.w.reqs x ≠ some (bid, false))
    (h2 : o.w.reqs = BufWriter.upd s.o.w.reqs x (some (o.w.bids x, false))) (h4 : o.w.busy = s.o.w.busy ++ [x])
    (hfr : s.d.reqs r = none) {d' : Store.St} (hst : Store.step k qid s.d (.io r true (blockAt L.raw (o.w.bids x)) (base + x)) = some d') :
    OI k qid cfgs L c base { o := o, d := d', rid := BufWriter.upd s.rid x r } (h.next s.d (.io r true (blockAt L.raw (o.w.bids x)) (base + x))) := by
  have J := Store.life_inv I.life
  have D := distinct hs hn hr
  have hxo : o.w.reqs x = some (o.w.bids x, false) := by rw [h2]; simp [BufWriter.upd]
  have hbid := D.mem x _ hxo
  have hnb : ∀ r' q, Store.Pending qid s.d r' → s.d.reqs r' = some q → q.buf ≠ base + x := by
    intro r' q hp hq e
    obtain ⟨_, b, bid, a1, a2, a3⟩ := I.own r' q hp hq (by omega) (by omega)
    have : b = x := by omega
    subst this
    exact hxr bid a3
  have ha : Store.Allowed k qid s.d (.io r true (blockAt L.raw (o.w.bids x)) (base + x)) := by
    refine ⟨hfr, I.live _ hbid, (I.mem x hx).1, ?_, ?_⟩
    · intro r' q hp hq e
      exact absurd e (hnb r' q hp hq)
    · intro _ _ r' q hp hq hw
      exact I.rd r' q hp hq hw _ hbid
  have hord : Store.Orderly k (.io r true (blockAt L.raw (o.w.bids x)) (base + x)) := fun _ _ e => by cases e
  have E := Store.step_eff J ha hst
  have hother : ∀ bid v r', Put qid L c.bids s.d h bid v r' → bid ≠ o.w.bids x →
      Put qid L c.bids d' (h.next s.d (.io r true (blockAt L.raw (o.w.bids x)) (base + x))) bid v r' :=
    fun bid v r' hp hne => hp.other E (fun e => hne e.symm)
  refine ⟨.next _ I.life ha hord hst, hr, ?_, ?_, ?_, ?_, ?_, ?_⟩
  · intro b hb
    rcases E.live _ (I.live b hb) with h | h
    · exact h
    · cases h
  · intro r' q hp hq hw b hb
    rcases E.pending hq hp with ⟨a1, a2⟩ | ⟨w, b', buf, a1, a2, a3⟩
    · exact I.rd r' q a2 a1 hw b hb
    · injection a1 with _ a1
      subst a1
      rw [a3] at hw; cases hw
  · intro b hb
    obtain ⟨a1, a2⟩ := I.mem b hb
    show (d'.mem (base + b)).length = _ ∧ L.dec (d'.mem (base + b)) = o.w.bufs b
    rcases E.mem (base + b) with h | ⟨data, h, _⟩ | ⟨_, i, r', q, os, h, _⟩
    · rw [h, h1]; exact ⟨a1, a2⟩
    · cases h
    · cases h
  · intro r' q hp hq a1 a2
    rcases E.pending hq hp with ⟨b1, b2⟩ | ⟨w, b', buf, b1, b2, b3⟩
    · obtain ⟨a3, b, bid, a4, a5, a6⟩ := I.own r' q b2 b1 a1 a2
      have hne : b ≠ x := fun e => hxr bid (e ▸ a6)
      exact ⟨a3, b, bid, a4, by simp [BufWriter.upd, hne, a5], by show o.w.reqs b = _; rw [h2]; simp [BufWriter.upd, hne, a6]⟩
    · injection b1 with b0 b1 b4 b5
      subst b1; subst b5; subst b0
      rw [b3]
      exact ⟨rfl, x, o.w.bids x, rfl, by simp [BufWriter.upd], hxo⟩
  · intro b bid hb
    change o.w.reqs b = _ at hb
    show Put qid L c.bids d' _ bid (o.w.bufs b) (BufWriter.upd s.rid x r b)
    by_cases e : b = x
    · subst e
      rw [hxo] at hb
      injection hb with hb; injection hb with hb _
      subst hb
      have hq : d'.reqs r = some ⟨(o.w.bids b).file, true, (o.w.bids b).offset, L.raw, base + b⟩ := by
        simp only [Store.step, blockAt] at hst
        obtain ⟨q', _, e⟩ := Store.queue_some hst
        rw [e]; simp [Store.upd]
      refine ⟨hbid, ?_, ⟨_, by simp only [BufWriter.upd, if_true]; exact hq, rfl, rfl, rfl, rfl⟩, ⟨r, blockAt L.raw (o.w.bids b), s.d.mem (base + b)⟩, h.of (blockAt L.raw (o.w.bids b)), ?_, ?_, ?_⟩
      · simp only [BufWriter.upd, if_true]
        intro hc
        rcases E.can' _ _ hc with h | h
        · have ho := Queue.reach_ord (J.que (qid (o.w.bids b).file))
          have hsub := ho.ca r h
          obtain ⟨⟨y, w⟩, g1, g2⟩ := List.mem_map.1 hsub
          simp only at g2; subst g2
          obtain ⟨q2, g3, _⟩ := J.sub _ _ _ g1
          rw [hfr] at g3; cases g3
        · cases h
      · simp [Store.Hist.next, Store.Hist.of, List.filter_cons]
      · simp [BufWriter.upd]
      · rw [h1]; exact (I.mem b hx).2
    · have hb' : s.o.w.reqs b = some (bid, false) := by
        rw [h2] at hb; simpa [BufWriter.upd, e] using hb
      simp only [BufWriter.upd, e, if_false, h1]
      refine hother _ _ _ (I.pen b bid hb') ?_
      intro e'
      subst e'
      exact e (D.two b x _ hb hxo)
  · intro bid v hm
    change (bid, v) ∈ o.w.transferred at hm
    have hne : bid ≠ o.w.bids x := by
      intro e; subst e
      exact D.tr x _ v hxo hm
    rw [h3] at hm
    obtain ⟨r', a1, a2, a3⟩ := I.tr bid v hm
    obtain ⟨q, h4', _⟩ := a1.2.2.1
    refine ⟨r', hother _ _ _ a1 hne, E.finished h4' a2, ?_⟩
    rcases a3 with a3 | ⟨b, a3, a4, a5⟩
    · refine .inl ?_
      intro hc
      rcases E.fail r' hc with h | ⟨h, _⟩
      · exact a3 h
      · exact a2 h
    · have hbx : b ≠ x := fun e => hxb (e ▸ a3)
      refine .inr ⟨b, by show b ∈ o.w.busy; rw [h4]; simp [a3], by simp [BufWriter.upd, hbx, a4], ?_⟩
      show ∃ bid', o.w.reqs b = _
      rw [h2]; simpa [BufWriter.upd, hbx] using a5

/-- An element is assigned. -/
theorem OI.assign {L : Layout α} (hL : L.Ok) {c : Stream.OCfg} (hs : c.size = L.size) {base : Nat} {s : OSys α} {h : Store.Hist}
    (I : OI k qid cfgs L c base s h) {x : α} {o : Stream.OSt α} (ho : Stream.oStep c s.o (.call (.assign x)) = .ok o)
    {d' : Store.St} (hst : Store.step k qid s.d (.fill (base + s.o.blk) (L.put (s.d.mem (base + s.o.blk)) s.o.elem x)) = some d') :
    OI k qid cfgs L c base { s with o := o, d := d' } h := by
  have hpos : 0 < c.size := by rw [hs]; exact hL.pos
  have J := Store.life_inv I.life
  have hr := Stream.OReach.next _ I.reach ho
  have hoi := Stream.oreach_inv hpos I.reach
  have hinv := BufWriter.reach_inv (Stream.wbs_pos c) BufWriter.legal1_legal hoi.reach
  simp only [Stream.oStep] at ho
  split at ho
  · rename_i hidle
    have hheld := hoi.op hidle.2 hidle.1
    have hmem : s.o.blk ∈ s.o.w.held := by rw [hheld]; simp
    have hlt : s.o.blk < c.n := hinv.lt _ (by unfold BufWriter.places; simp [hmem])
    have hnp : ∀ bid, s.o.w.reqs s.o.blk ≠ some (bid, false) := by
      intro bid hreq
      have hnd := hinv.nd
      unfold BufWriter.places at hnd
      exact (List.nodup_append.1 hnd).2.2 _ hmem _ (by simp [hinv.pend _ bid hreq]) rfl
    split at ho
    · rename_i hel
      simp only [BufWriter.step, hidle.1, if_true] at ho
      injection ho with ho
      subst ho
      have hel' : s.o.elem < L.size := by rw [← hs]; exact hoi.el
      have ha : Store.Allowed k qid s.d (.fill (base + s.o.blk) (L.put (s.d.mem (base + s.o.blk)) s.o.elem x)) := by
        intro r q hp hq e
        obtain ⟨_, b, bid, a1, a2, a3⟩ := I.own r q hp hq (by omega) (by omega)
        have : b = s.o.blk := by omega
        subst this
        exact hnp bid a3
      have hord : Store.Orderly k (.fill (base + s.o.blk) (L.put (s.d.mem (base + s.o.blk)) s.o.elem x)) := fun _ _ e => by cases e
      have hl := Store.Life.next _ I.life ha hord hst
      simp only [Store.step] at hst
      injection hst with hst
      subst hst
      obtain ⟨m1, m2⟩ := I.mem _ hlt
      refine ⟨hl, hr, I.live, I.rd, ?_, I.own, ?_, I.tr⟩
      · intro b hb
        simp only [Store.upd, BufWriter.upd, Nat.add_left_cancel_iff]
        split
        · exact ⟨hL.len _ _ _ m1 hel', by rw [hL.put _ _ _ m1 hel', m2]⟩
        · exact I.mem b hb
      · intro b bid hb
        have hne : b ≠ s.o.blk := fun e => hnp bid (e ▸ hb)
        simp only [BufWriter.upd, hne, if_false]
        exact I.pen b bid hb
    · cases ho
  · cases ho

/-- The other calls. -/
theorem call_frame {c : Stream.OCfg} {s o : Stream.OSt α} {kk : Stream.Call α} (hk : ∀ x, kk ≠ .assign x) (h : Stream.oStep c s (.call kk) = .ok o) :
    o.w.bufs = s.w.bufs ∧ o.w.reqs = s.w.reqs ∧ o.w.transferred = s.w.transferred ∧ o.w.busy = s.w.busy := by
  have pass : ∀ (s' : Stream.OSt α), Stream.passBlock c s' = .ok o → s'.w = s.w →
      o.w.bufs = s.w.bufs ∧ o.w.reqs = s.w.reqs ∧ o.w.transferred = s.w.transferred ∧ o.w.busy = s.w.busy := by
    intro s' h e
    unfold Stream.passBlock at h
    split at h
    · cases h
    · simp only [BufWriter.step] at h
      split at h
      · cases h
      · rename_i w hw
        injection h with h; subst h
        split at hw
        · injection hw with hw; subst hw; rw [e]; exact ⟨rfl, rfl, rfl, rfl⟩
        · cases hw
  simp only [Stream.oStep] at h
  split at h
  · cases kk with
    | assign x => exact absurd rfl (hk x)
    | advance =>
      simp only at h
      split at h
      · exact pass _ h rfl
      · injection h with h; subst h; exact ⟨rfl, rfl, rfl, rfl⟩
    | flush => simp only at h; exact pass _ h rfl
    | close =>
      simp only [BufWriter.step] at h
      split at h
      · split at h
        · cases h
        · rename_i w hw
          injection h with h; subst h
          split at hw
          · injection hw with hw; subst hw; exact ⟨rfl, rfl, rfl, rfl⟩
          · cases hw
      · cases h
  · cases h

theorem orun_inv {L : Layout α} (hL : L.Ok) {c : Stream.OCfg} (hs : c.size = L.size) (hn : c.bids.Nodup) {base : Nat} {s : OSys α} {h : Store.Hist}
    (hr : ORun k qid cfgs L c base s h) : OI k qid cfgs L c base s h := by
  have hpos : 0 < c.size := by rw [hs]; exact hL.pos
  induction hr with
  | start bufs bids blk rid h1 h2 h3 h4 h5 h6 =>
    refine ⟨h1, .start bufs bids blk (fun b => by rw [hs]; exact h6 b), h2, h3, fun b hb => ⟨(h5 b hb).1, (h5 b hb).2.symm⟩, ?_, ?_, ?_⟩
    · intro r q hp hq a1 a2
      exact absurd ⟨a1, a2⟩ (h4 r q hp hq)
    · intro b bid hb; simp [Stream.OSt.init, BufWriter.init] at hb
    · intro bid v hb; simp [Stream.OSt.init, BufWriter.init] at hb
  | @next s s' h ev _ hfr hfair hst I =>
    unfold OSys.step at hst
    split at hst
    · rename_i o ho
      split at hst
      · rename_i d' hd
        injection hst with hst
        subst hst
        cases ev with
        | env op =>
          simp only [OSys.stream] at ho
          injection ho with ho; subst ho
          simp only [OSys.store, apply] at hd
          exact I.env hL hfair.1 hfair.2.1 hfair.2.2 hd
        | done b =>
          simp only [OSys.store, apply, Option.some.injEq] at hd
          subst hd
          simp only [OSys.stream] at ho
          split at ho
          · cases ho
          · rename_i q hq
            split at ho
            · rename_i hsv
              split at ho
              · rename_i o' ho'
                injection ho with ho; subst ho
                exact I.done hpos hq (by simpa using hsv) ho'
              · cases ho
            · cases ho
        | call kk =>
          simp only [OSys.stream] at ho
          split at ho
          · rename_i o' ho'
            injection ho with ho; subst ho
            cases kk with
            | assign x =>
              simp only [OSys.store, apply] at hd
              exact I.assign hL hs ho' hd
            | _ =>
              simp only [OSys.store, apply, Option.some.injEq] at hd
              subst hd
              obtain ⟨f1, f2, f3, f4⟩ := call_frame (by intro x e; cases e) ho'
              exact I.quiet (.next _ I.reach ho') f1 f2 f3 (fun b hb => .inl (by rw [f4]; exact hb))
          · cases ho
        | work p ch r =>
          simp only [OSys.stream] at ho
          split at ho
          · rename_i o' ho'
            unfold OSys.check at ho
            split at ho
            · rename_i hck
              injection ho with ho; subst ho
              have hr' := Stream.OReach.next _ I.reach ho'
              have hoi := Stream.oreach_inv hpos I.reach
              have hinv := BufWriter.reach_inv (Stream.wbs_pos c) BufWriter.legal1_legal hoi.reach
              simp only [OSys.store] at hd ⊢
              simp only [Stream.oStep] at ho'
              split at ho'
              · cases ho'
              · rename_i w hw
                have how : o'.w = w := by
                  split at ho' <;> (injection ho' with ho'; subst ho'; rfl)
                have W := work_work hinv (by simpa [BufWriter.step] using hw)
                rw [hw] at hd
                simp only [hw, OSys.reqs, how] at hd ⊢
                rcases W.cases with ⟨w1, w2, w3⟩ | ⟨x, w1, w2, w3, w4, w5, w6⟩
                · simp only [w1, apply, Option.some.injEq] at hd ⊢
                  subst hd
                  refine I.quiet hr' (by rw [how]; exact W.bufs) (by rw [how]; exact w2) (by rw [how]; exact W.tr) ?_
                  intro b hb
                  rw [how]
                  by_cases hbw : b ∈ w.busy
                  · exact .inl hbw
                  · refine .inr ?_
                    have := (List.all_eq_true.1 hck) b (by simp [checked, how, hb, hbw])
                    simpa using this
                · simp only [w1, apply] at hd ⊢
                  have := I.submit hpos hn hr' (by rw [how]; exact W.bufs) (by rw [how]; exact W.tr) w2 w3 w4 (by rw [how]; exact w5)
                    (by rw [how]; exact w6) (r := r) hfr (by rw [how]; exact hd)
                  rw [how] at this
                  exact this
            · cases ho
          · cases ho
      · cases hst
    · cases hst
    · cases hst

end Foxxll.E2E
