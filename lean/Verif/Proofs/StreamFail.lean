import Verif.Spec.StreamFail
import Verif.Props.Streams
/-
Lemmas about streams with failing reads.
-/
namespace Foxxll.StreamFail
open Foxxll.Stream (ISt IOp iInit iStep firstElem IInv IShape upTo upTo_succ deliver)

variable {α : Type} {rev : Bool} {size : Nat} {c : Cfg α}

theorem Ok.order (h : Ok size c) : Prefetch.OrderOk c.eff := ⟨h.seq, h.len, h.bufs⟩

theorem Ok.lens (h : Ok size c) : ∀ k, k < c.eff.seqLength → (c.eff.disk k).length = size := by
  intro k hk
  show (if c.fails k then c.junk k else c.disk k).length = size
  split
  · exact h.junk k hk
  · exact h.disk k hk

/-- A step does not look at the elements delivered so far. -/
theorem iStep_got {pc : Prefetch.Cfg (List α)} {s s' : ISt α} {op : IOp} (h : iStep rev size pc s op = .ok s') (g : List α) :
    ∃ t, s'.got = s.got ++ t ∧ iStep rev size pc { s with got := g } op = .ok { s' with got := g ++ t } ∧ ((∃ x, t = [x]) ∧ op = .advance ∨ t = [] ∧ op ≠ .advance) := by
  have hl : ∀ (f f' : Prefetch.St (List α) → ISt α) (r : Prefetch.Res (Prefetch.St (List α))), Stream.lift f r = .ok s' → (∀ p, (f p).got = s.got) →
      (∀ p, f' p = { f p with got := g }) → s'.got = s.got ∧ Stream.lift f' r = .ok { s' with got := g } := by
    intro f f' r hr h1 h2
    cases r with
    | ok p =>
      simp only [Stream.lift] at hr
      injection hr with hr; subst hr
      exact ⟨h1 p, by simp only [Stream.lift, h2]⟩
    | _ => simp [Stream.lift] at hr
  have done : ∀ {op : IOp}, op ≠ .advance → (s'.got = s.got ∧ iStep rev size pc { s with got := g } op = .ok { s' with got := g }) →
      ∃ t, s'.got = s.got ++ t ∧ iStep rev size pc { s with got := g } op = .ok { s' with got := g ++ t } ∧ ((∃ x, t = [x]) ∧ op = .advance ∨ t = [] ∧ op ≠ .advance) := by
    intro op ho h
    exact ⟨[], by simpa using h.1, by simpa using h.2, .inr ⟨rfl, ho⟩⟩
  cases op with
  | advance =>
    simp only [iStep] at h ⊢
    by_cases h1 : s.pc = .idle
    · by_cases h2 : s.notFinished = true
      · simp only [h1, h2, if_true] at h ⊢
        cases hb : s.p.bufs s.blk with
        | none => simp [hb] at h
        | some blk =>
          simp only [hb] at h ⊢
          cases hx : blk[s.elem]? with
          | none => simp [hx] at h
          | some x =>
            simp only [hx] at h ⊢
            cases he : Stream.nextElem rev size s.elem with
            | some e =>
              simp only [he] at h ⊢
              injection h with h; subst h
              exact ⟨[x], rfl, rfl, .inl ⟨⟨x, rfl⟩, trivial⟩⟩
            | none =>
              simp only [he] at h ⊢
              injection h with h; subst h
              exact ⟨[x], rfl, rfl, .inl ⟨⟨x, rfl⟩, trivial⟩⟩
      · simp [h1, h2] at h
    · simp [h1] at h
  | consume =>
    refine done (by simp) ?_
    simp only [iStep] at h ⊢
    by_cases h1 : s.pc = .consuming
    · simp only [h1, if_true] at h ⊢
      exact hl _ _ _ h (fun p => by split <;> rfl) (fun p => by split <;> rfl)
    · simp [h1] at h
  | wake =>
    refine done (by simp) ?_
    simp only [iStep] at h ⊢
    by_cases h1 : s.pc = .waiting
    · simp only [h1, if_true] at h ⊢
      exact hl _ _ _ h (fun p => rfl) (fun p => rfl)
    · simp [h1] at h
  | spurious =>
    refine done (by simp) ?_
    simp only [iStep] at h ⊢
    by_cases h1 : s.pc = .waiting
    · simp only [h1, if_true] at h ⊢
      exact hl _ _ _ h (fun p => rfl) (fun p => rfl)
    · simp [h1] at h
  | copy b => exact done (by simp) (hl _ _ _ h (fun p => rfl) (fun p => rfl))
  | signal b => exact done (by simp) (hl _ _ _ h (fun p => rfl) (fun p => rfl))
  | finish b => exact done (by simp) (hl _ _ _ h (fun p => rfl) (fun p => rfl))

/-- Invariant: with `g` for the elements delivered it is a state of a stream without failures; nothing that was left behind failed; after exceptions the stream stands at a
block that failed. -/
structure FInv (rev : Bool) (size : Nat) (c : Cfg α) (s : ISt α) (m : Nat) (g : List α) : Prop where
  inv : IInv rev size c.eff { s with got := g }
  good : ∀ j, j < passed s → c.fails j = false
  nf : s.pc ≠ .idle → s.notFinished = true
  fin : s.notFinished = false → passed s = c.seqLength
  zero : m = 0 → s.got = g
  more : 0 < m → ∃ k rest, c.fails k = true ∧ s.p.held = [(k, s.blk)] ∧ g = upTo rev c.eff k ++ rest ∧
    s.got = upTo rev c.eff k ++ (List.replicate m (deliver rev (c.eff.disk k))).flatten ++ rest

theorem lift_ok {r : Stream.Res (ISt α)} {s : ISt α} (h : lift r = .ok s) : r = .ok s := by
  cases r <;> simp_all [lift]

theorem lift_threw {r : Stream.Res (ISt α)} {s : ISt α} : lift r ≠ .threw s := by
  cases r <;> simp [lift]

theorem step_ok {s s' : ISt α} {op : IOp} (h : step rev size c s op = .ok s') : iStep rev size c.eff s op = .ok s' ∧ (op = .consume → bad c s s.blk = false) := by
  unfold step at h
  cases op with
  | consume =>
    simp only [if_true] at h
    split at h
    · split at h <;> cases h
    · rename_i hb
      have h := lift_ok h
      refine ⟨h, fun _ => ?_⟩
      have : s.pc = .consuming := by
        simp only [iStep] at h
        by_cases h1 : s.pc = .consuming
        · exact h1
        · simp [h1] at h
      simpa [this] using hb
  | _ => exact ⟨lift_ok (by simpa using h), by simp⟩

theorem step_threw {s s' : ISt α} {op : IOp} : step rev size c s op = .threw s' ↔ op = .consume ∧ s.pc = .consuming ∧ bad c s s.blk = true ∧ done s s.blk = true ∧
    s' = { s with pc := .idle } := by
  unfold step
  cases op with
  | consume =>
    simp only [if_true, true_and]
    by_cases h : s.pc = .consuming ∧ bad c s s.blk = true
    · rw [if_pos h]
      by_cases hd : done s s.blk = true
      · rw [if_pos hd]
        simp only [Res.threw.injEq]
        exact ⟨fun e => ⟨h.1, h.2, hd, e.symm⟩, fun e => e.2.2.2.symm⟩
      · rw [if_neg hd]
        simp [hd]
    · rw [if_neg h]
      exact ⟨fun e => absurd e lift_threw, fun e => absurd ⟨e.1, e.2.1⟩ h⟩
  | _ => simp [lift_threw]

/-- What the prefetcher holds for the block at which the stream stands. -/
theorem held_req (hO : Ok size c) {s : ISt α} {g : List α} (hi : IInv rev size c.eff { s with got := g }) {k : Nat} (hh : s.p.held = [(k, s.blk)]) :
    bad c s s.blk = c.fails k := by
  have hpi := Prefetch.reach_inv hO.order.good hi.reach
  obtain ⟨_, st, _, hr⟩ := hpi.held k s.blk (by show (k, s.blk) ∈ s.p.held; rw [hh]; simp)
  have hr : s.p.reqs s.blk = some (k, st) := hr
  unfold bad
  rw [hr]

theorem init_inv (hO : Ok size c) {s : ISt α} {blk : Nat} (h : iInit rev size c.eff blk = .ok s) : FInv rev size c s 0 s.got := by
  obtain ⟨s', h1, h2⟩ := Stream.iinit_inv (rev := rev) hO.pos hO.order.good blk
  rw [h] at h1
  injection h1 with h1; subst h1
  have hnf : s.notFinished = true := by unfold iInit at h; split at h <;> (try cases h); split at h <;> cases h; rfl
  refine ⟨h2, ?_, fun _ => hnf, (fun e => by rw [hnf] at e; cases e), fun _ => rfl, fun h => absurd h (by decide)⟩
  intro j hj
  have hpi := Prefetch.reach_inv hO.order.good h2.reach
  cases h2.shape with
  | idle k a1 => rw [show s.pc = .waiting from ?_] at a1; cases a1; unfold iInit at h; split at h <;> (try cases h); split at h <;> cases h; rfl
  | consuming k a1 => rw [show s.pc = .waiting from ?_] at a1; cases a1; unfold iInit at h; split at h <;> (try cases h); split at h <;> cases h; rfl
  | finished a1 => rw [show s.pc = .waiting from ?_] at a1; cases a1; unfold iInit at h; split at h <;> (try cases h); split at h <;> cases h; rfl
  | waiting a1 a3 a4 a6 a7 =>
    have hg : s.got = [] := by unfold iInit at h; split at h <;> (try cases h); split at h <;> cases h; rfl
    unfold passed at hj
    rw [a4] at hj
    have hlen : (upTo rev c.eff s.p.returned.length).length = 0 := by rw [← a7, hg]; rfl
    have : ∀ k, k ≤ c.eff.seqLength → 0 < k → (upTo rev c.eff k).length ≠ 0 := by
      intro k hk h0
      obtain ⟨k, rfl⟩ : ∃ k', k = k' + 1 := ⟨k - 1, by omega⟩
      rw [upTo_succ, List.length_append, Stream.deliver_length, hO.lens k (by omega)]
      have := hO.pos
      omega
    have hnc := hpi.nc
    have hw := hpi.wait
    have : s.p.returned.length = 0 := by
      cases hz : s.p.returned.length with
      | zero => rfl
      | succ n =>
        exfalso
        refine this (n + 1) ?_ (by omega) (by rw [← hz]; exact hlen)
        rcases hw with h | h <;> omega
    simp [this] at hj

theorem refill_returned {pc : Prefetch.Cfg (List α)} {s s' : Prefetch.St (List α)} {b : Nat} (h : Prefetch.refill pc s b = .ok s') : s'.returned = s.returned :=
  (Prefetch.refill_shape h).1

theorem nf_step {pc : Prefetch.Cfg (List α)} {s s' : ISt α} {op : IOp} (h : iStep rev size pc s op = .ok s') (hn : s.pc ≠ .idle → s.notFinished = true) :
    s'.pc ≠ .idle → s'.notFinished = true := by
  have dev : ∀ pop, Stream.lift (fun p => { s with p := p }) (Prefetch.step pc s.p pop) = .ok s' → s'.pc ≠ .idle → s'.notFinished = true := by
    intro pop h
    cases hq : Prefetch.step pc s.p pop with
    | ok p => rw [hq] at h; simp only [Stream.lift] at h; injection h with h; subst h; exact hn
    | _ => rw [hq] at h; simp [Stream.lift] at h
  have wak : ∀ pop, Stream.lift (fun p => ({ s with p := p, pc := .idle, notFinished := true, blk := Stream.lastBuf p s.blk } : ISt α)) (Prefetch.step pc s.p pop) = .ok s' →
      s'.pc ≠ .idle → s'.notFinished = true := by
    intro pop h
    cases hq : Prefetch.step pc s.p pop with
    | ok p => rw [hq] at h; simp only [Stream.lift] at h; injection h with h; subst h; exact fun _ => rfl
    | _ => rw [hq] at h; simp [Stream.lift] at h
  cases op with
  | advance =>
    simp only [iStep] at h
    split at h
    · split at h
      · rename_i hnf
        split at h
        · cases h
        · split at h
          · cases h
          · split at h <;> (injection h with h; subst h; exact fun _ => hnf)
      · cases h
    · cases h
  | consume =>
    simp only [iStep] at h
    split at h
    · rename_i hpc
      have hnf := hn (by rw [hpc]; simp)
      cases hq : Prefetch.step pc s.p (.consumed s.blk) with
      | ok p =>
        rw [hq] at h
        simp only [Stream.lift] at h
        injection h with h
        split at h
        · subst h; exact fun _ => hnf
        · subst h; exact fun e => absurd rfl e
      | _ => rw [hq] at h; simp [Stream.lift] at h
    · cases h
  | wake =>
    simp only [iStep] at h
    split at h
    · exact wak _ h
    · cases h
  | spurious =>
    simp only [iStep] at h
    split at h
    · exact wak _ h
    · cases h
  | copy b => exact dev _ h
  | signal b => exact dev _ h
  | finish b => exact dev _ h

/-- What a step does to the blocks left behind. -/
theorem frame {pc : Prefetch.Cfg (List α)} {s s' : ISt α} {op : IOp} (hsp : op ≠ .spurious) (h : iStep rev size pc s op = .ok s') :
    (op ≠ .consume → passed s' = passed s) ∧ (op ≠ .consume → op ≠ .wake → s'.p.held = s.p.held ∧ s'.blk = s.blk) ∧
    (op = .wake → s.pc = .waiting) ∧
    (op = .consume → s.pc = .consuming ∧ s'.p.returned = s.p.returned ∧ s'.p.held = s.p.held.filter fun p => p.2 != s.blk) := by
  have dev : ∀ pop, ((∃ b, pop = .copy b) ∨ (∃ b, pop = .signal b) ∨ ∃ b, pop = .finish b) → Stream.lift (fun p => { s with p := p }) (Prefetch.step pc s.p pop) = .ok s' →
      passed s' = passed s ∧ s'.p.held = s.p.held ∧ s'.blk = s.blk := by
    intro pop hp h
    cases hq : Prefetch.step pc s.p pop with
    | ok p =>
      rw [hq] at h
      simp only [Stream.lift] at h
      injection h with h; subst h
      obtain ⟨_, h2, h3⟩ := Stream.device_frame hq hp
      exact ⟨by simp only [passed, h2, h3], h2, rfl⟩
    | _ => rw [hq] at h; simp [Stream.lift] at h
  cases op with
  | advance =>
    simp only [iStep] at h
    have : s'.p = s.p ∧ s'.blk = s.blk := by
      split at h
      · split at h
        · split at h
          · cases h
          · split at h
            · cases h
            · split at h <;> (injection h with h; subst h; exact ⟨rfl, rfl⟩)
        · cases h
      · cases h
    refine ⟨fun _ => by simp only [passed, this.1], fun _ _ => ⟨by rw [this.1], this.2⟩, by simp, by simp⟩
  | consume =>
    refine ⟨by simp, by simp, by simp, fun _ => ?_⟩
    simp only [iStep] at h
    by_cases h1 : s.pc = .consuming
    · refine ⟨h1, ?_⟩
      simp only [h1, if_true] at h
      cases hq : Prefetch.step pc s.p (.consumed s.blk) with
      | ok p =>
        rw [hq] at h
        simp only [Stream.lift] at h
        injection h with h
        have hp : s'.p = p := by subst h; split <;> rfl
        rw [hp]
        have hr : ∃ r, Prefetch.refill pc s.p s.blk = .ok r ∧ p.returned = r.returned ∧ p.held = r.held := by
          simp only [Prefetch.step] at hq
          split at hq
          · cases hq
          · split at hq
            · cases hq
            · cases hr : Prefetch.refill pc s.p s.blk with
              | ok r =>
                rw [hr] at hq
                refine ⟨r, rfl, ?_⟩
                simp only at hq
                have hgo : (if pc.seqLength ≤ r.nextconsume then Prefetch.Res.ok r else .ok (Prefetch.beginWait r)) = .ok p → p.returned = r.returned ∧ p.held = r.held := by
                  intro e
                  split at e <;> (injection e with e; subst e; exact ⟨rfl, rfl⟩)
                split at hq
                · exact hgo hq
                · exact hgo hq
                · cases hq
              | _ =>
                rw [hr] at hq
                simp only at hq
                split at hq <;> cases hq
        obtain ⟨r, h1, h2, h3⟩ := hr
        exact ⟨h2.trans (refill_returned h1), h3.trans (Stream.refill_held h1)⟩
      | _ => rw [hq] at h; simp [Stream.lift] at h
    · simp [h1] at h
  | wake =>
    simp only [iStep] at h
    by_cases h1 : s.pc = .waiting
    · simp only [h1, if_true] at h
      refine ⟨fun _ => ?_, by simp, fun _ => h1, by simp⟩
      cases hq : Prefetch.step pc s.p .wake with
      | ok p =>
        rw [hq] at h
        simp only [Stream.lift] at h
        injection h with h; subst h
        simp only [Prefetch.step] at hq
        split at hq
        · cases hq
        · split at hq
          · unfold Prefetch.handOut at hq
            split at hq
            · cases hq
            · split at hq
              · injection hq with hq; subst hq
                simp [passed]
              · cases hq
          · cases hq
      | _ => rw [hq] at h; simp [Stream.lift] at h
    · simp [h1] at h
  | spurious => exact absurd rfl hsp
  | copy b => obtain ⟨h1, h2⟩ := dev (.copy b) (.inl ⟨b, rfl⟩) h; exact ⟨fun _ => h1, fun _ _ => h2, by simp, by simp⟩
  | signal b => obtain ⟨h1, h2⟩ := dev (.signal b) (.inr (.inl ⟨b, rfl⟩)) h; exact ⟨fun _ => h1, fun _ _ => h2, by simp, by simp⟩
  | finish b => obtain ⟨h1, h2⟩ := dev (.finish b) (.inr (.inr ⟨b, rfl⟩)) h; exact ⟨fun _ => h1, fun _ _ => h2, by simp, by simp⟩

theorem consuming_at {s : ISt α} {g : List α} (hi : IInv rev size c.eff { s with got := g }) (hpc : s.pc = .consuming) :
    ∃ k, s.p.held = [(k, s.blk)] ∧ s.p.returned.length = k + 1 ∧ g = upTo rev c.eff (k + 1) ∧ s.elem = firstElem rev size := by
  cases hi.shape with
  | consuming k a1 a3 a4 a5 a6 a7 => exact ⟨k, a4, a5, a7, a6⟩
  | idle k a1 => rw [show s.pc = _ from a1] at hpc; cases hpc
  | waiting a1 => rw [show s.pc = _ from a1] at hpc; cases hpc
  | finished a1 => rw [show s.pc = _ from a1] at hpc; cases hpc

theorem upTo_length (hO : Ok size c) {k : Nat} (hk : k ≤ c.seqLength) : (upTo rev c.eff k).length = k * size := by
  induction k with
  | zero => simp [upTo]
  | succ k ih => rw [upTo_succ, List.length_append, Stream.deliver_length, hO.lens k (by show k < c.seqLength; omega), ih (by omega), Nat.succ_mul]

theorem nf_frame {pc : Prefetch.Cfg (List α)} {s s' : ISt α} {op : IOp} (h : iStep rev size pc s op = .ok s') (hc : op ≠ .consume) (hn : s'.notFinished = false) :
    s.notFinished = false := by
  have dev : ∀ pop, Stream.lift (fun p => { s with p := p }) (Prefetch.step pc s.p pop) = .ok s' → s.notFinished = false := by
    intro pop h
    cases hq : Prefetch.step pc s.p pop with
    | ok p => rw [hq] at h; simp only [Stream.lift] at h; injection h with h; subst h; exact hn
    | _ => rw [hq] at h; simp [Stream.lift] at h
  have wak : ∀ pop, Stream.lift (fun p => ({ s with p := p, pc := .idle, notFinished := true, blk := Stream.lastBuf p s.blk } : ISt α)) (Prefetch.step pc s.p pop) = .ok s' →
      s.notFinished = false := by
    intro pop h
    cases hq : Prefetch.step pc s.p pop with
    | ok p => rw [hq] at h; simp only [Stream.lift] at h; injection h with h; subst h; cases hn
    | _ => rw [hq] at h; simp [Stream.lift] at h
  cases op with
  | advance =>
    simp only [iStep] at h
    split at h
    · split at h
      · split at h
        · cases h
        · split at h
          · cases h
          · split at h <;> (injection h with h; subst h; exact hn)
      · cases h
    · cases h
  | consume => exact absurd rfl hc
  | wake =>
    simp only [iStep] at h
    split at h
    · exact wak _ h
    · cases h
  | spurious =>
    simp only [iStep] at h
    split at h
    · exact wak _ h
    · cases h
  | copy b => exact dev _ h
  | signal b => exact dev _ h
  | finish b => exact dev _ h

theorem step_inv (hO : Ok size c) {s s' : ISt α} {m : Nat} {g : List α} (hI : FInv rev size c s m g) {op : IOp} (hsp : op ≠ .spurious) (h : step rev size c s op = .ok s') :
    ∃ g', FInv rev size c s' m g' := by
  obtain ⟨h, hb⟩ := step_ok h
  obtain ⟨t, ht, hs', hop⟩ := iStep_got h g
  have hI' := Stream.istep_inv hO.pos hO.order hO.lens hI.inv hsp hs'
  obtain ⟨f1, f2, f3, f4⟩ := frame hsp h
  refine ⟨g ++ t, hI', ?_, nf_step h hI.nf, ?_, (fun hm => by rw [ht, hI.zero hm]), ?_⟩
  · intro j hj
    by_cases hc : op = .consume
    · obtain ⟨e1, e2, e3⟩ := f4 hc
      obtain ⟨k, e4, e5, _⟩ := consuming_at hI.inv e1
      have hk : c.fails k = false := by rw [← held_req hO hI.inv e4]; exact hb hc
      by_cases hjk : j = k
      · rw [hjk]; exact hk
      · apply hI.good
        unfold passed at hj ⊢
        rw [e2, e3, e4] at hj
        rw [e4]
        simp at hj ⊢
        omega
    · rw [f1 hc] at hj; exact hI.good j hj
  · intro hn
    by_cases hc : op = .consume
    · obtain ⟨e1, e2, e3⟩ := f4 hc
      obtain ⟨k, e4, e5, e6, _⟩ := consuming_at hI.inv e1
      have hgt : g ++ t = upTo rev c.eff c.eff.seqLength := by
        cases hI'.shape with
        | finished a1 a2 a3 a4 a6 => exact a6
        | idle k a1 a2 => rw [show s'.notFinished = _ from a2] at hn; cases hn
        | consuming k a1 =>
          have := nf_step h hI.nf (by rw [show s'.pc = _ from a1]; simp)
          rw [this] at hn; cases hn
        | waiting a1 =>
          have := nf_step h hI.nf (by rw [show s'.pc = _ from a1]; simp)
          rw [this] at hn; cases hn
      have ht0 : t = [] := by
        rcases hop with ⟨_, h2⟩ | ⟨h2, _⟩
        · rw [hc] at h2; cases h2
        · exact h2
      have hpi := Prefetch.reach_inv hO.order.good hI.inv.reach
      have hk : k + 1 ≤ c.seqLength := by
        have h1 : s.p.nextconsume ≤ c.seqLength := hpi.nc
        have h2 := hpi.wait
        rcases h2 with h2 | h2
        · have h2 : s.p.nextconsume = s.p.returned.length := h2.2
          omega
        · have h2 : s.p.nextconsume = s.p.returned.length + 1 := h2.2
          omega
      have hl : (k + 1) * size = c.seqLength * size := by
        rw [ht0, List.append_nil, e6] at hgt
        rw [← upTo_length (rev := rev) hO hk, ← upTo_length (rev := rev) hO (Nat.le_refl _), hgt]; rfl
      have := Nat.eq_of_mul_eq_mul_right hO.pos hl
      unfold passed
      rw [e2, e3, e4, e5]
      simpa using this
    · rw [f1 hc]; exact hI.fin (nf_frame h hc hn)
  · intro hm
    obtain ⟨k, rest, h1, h2, h3, h4⟩ := hI.more hm
    have hc : op ≠ .consume := by
      intro hc
      have := hb hc
      rw [held_req hO hI.inv h2, h1] at this
      cases this
    have hw : op ≠ .wake := by
      intro hw
      have hpc := f3 hw
      cases hI.inv.shape with
      | waiting a1 a3 a4 => rw [show s.p.held = [] from a4] at h2; cases h2
      | idle k a1 => rw [show s.pc = _ from a1] at hpc; cases hpc
      | consuming k a1 => rw [show s.pc = _ from a1] at hpc; cases hpc
      | finished a1 => rw [show s.pc = _ from a1] at hpc; cases hpc
    obtain ⟨e1, e2⟩ := f2 hc hw
    exact ⟨k, rest ++ t, h1, by rw [e1, e2]; exact h2, by rw [h3, List.append_assoc], by rw [ht, h4]; simp only [List.append_assoc]⟩

theorem threw_inv (hO : Ok size c) {s s' : ISt α} {m : Nat} {g : List α} (hI : FInv rev size c s m g) {op : IOp} (h : step rev size c s op = .threw s') :
    ∃ g', FInv rev size c s' (m + 1) g' := by
  obtain ⟨_, hpc, hb, _, rfl⟩ := step_threw.1 h
  obtain ⟨k, h1, h2, h3, h4⟩ := consuming_at hI.inv hpc
  have hk : c.fails k = true := by rw [← held_req hO hI.inv h1]; exact hb
  have hw : s.p.waiting = none := by
    cases hI.inv.shape with
    | consuming k a1 a3 => exact a3
    | idle k a1 => rw [show s.pc = _ from a1] at hpc; cases hpc
    | waiting a1 => rw [show s.pc = _ from a1] at hpc; cases hpc
    | finished a1 => rw [show s.pc = _ from a1] at hpc; cases hpc
  have hnf : s.notFinished = true := hI.nf (by rw [hpc]; simp)
  refine ⟨upTo rev c.eff k, ⟨hI.inv.reach, hI.inv.el, .idle k rfl hnf hw h1 h2 ?_⟩, hI.good, (fun e => absurd rfl e), (fun e => by rw [show s.notFinished = false from e] at hnf; cases hnf), (fun e => by cases e), fun _ => ⟨k, [], hk, h1, by simp, ?_⟩⟩
  · show upTo rev c.eff k = _ ++ (deliver rev (c.eff.disk k)).take (Stream.pos rev size s.elem)
    rw [h4, (Stream.pos_first rev size hO.pos).2]
    simp
  · show s.got = _
    rw [upTo_succ] at h3
    by_cases hm : m = 0
    · subst hm
      rw [hI.zero rfl, h3]
      simp
    · obtain ⟨k', rest, _, e2, e3, e4⟩ := hI.more (by omega)
      rw [h1] at e2
      injection e2 with e2 _
      injection e2 with e2 _
      subst e2
      rw [h3] at e3
      rw [e4, ← List.append_cancel_left e3, List.replicate_succ']
      simp only [List.flatten_append, List.append_assoc]
      simp

theorem reach_inv (hO : Ok size c) {s : ISt α} {m : Nat} (h : Reach rev size c s m) : ∃ g, FInv rev size c s m g := by
  induction h with
  | start blk h => exact ⟨_, init_inv hO h⟩
  | next op _ hsp h ih => obtain ⟨g, ih⟩ := ih; exact step_inv hO ih hsp h
  | threw op _ _ h ih => obtain ⟨g, ih⟩ := ih; exact threw_inv hO ih h

theorem upTo_real {k : Nat} (h : ∀ j, j < k → c.fails j = false) : upTo rev c.eff k = real rev c k := by
  induction k with
  | zero => rfl
  | succ k ih =>
    rw [upTo_succ, ih fun j hj => h j (by omega)]
    have : c.eff.disk k = c.disk k := by
      show (if c.fails k then c.junk k else c.disk k) = _
      rw [h k (by omega)]; rfl
    rw [this]
    simp [real, List.range_succ, List.flatMap_append, deliver, elems]

theorem real_prefix {k n : Nat} (h : k ≤ n) : real rev c k <+: real rev c n := by
  induction n with
  | zero => rw [show k = 0 by omega]; exact List.prefix_refl _
  | succ n ih =>
    by_cases e : k = n + 1
    · subst e; exact List.prefix_refl _
    · refine (ih (by omega)).trans ?_
      simp [real, List.range_succ, List.flatMap_append]

/-- The block at which a stream stands. -/
theorem passed_held {s : ISt α} {g : List α} (hi : IInv rev size c.eff { s with got := g }) :
    (∃ k, s.p.held = [(k, s.blk)] ∧ s.p.returned.length = k + 1 ∧ passed s = k) ∨ (s.p.held = [] ∧ passed s = s.p.returned.length) := by
  unfold passed
  cases hi.shape with
  | idle k a1 a2 a3 a4 a5 => exact .inl ⟨k, a4, a5, by rw [show s.p.held = _ from a4, show s.p.returned.length = _ from a5]; simp⟩
  | consuming k a1 a3 a4 a5 => exact .inl ⟨k, a4, a5, by rw [show s.p.held = _ from a4, show s.p.returned.length = _ from a5]; simp⟩
  | waiting a1 a3 a4 => exact .inr ⟨a4, by rw [show s.p.held = _ from a4]; simp⟩
  | finished a1 a2 a3 a4 => exact .inr ⟨a4, by rw [show s.p.held = _ from a4]; simp⟩

theorem got_passed {s : ISt α} {m : Nat} {g : List α} (hI : FInv rev size c s m g) : real rev c (passed s) <+: s.got := by
  rw [← upTo_real hI.good]
  by_cases hm : 0 < m
  · obtain ⟨k, rest, h1, h2, h3, h4⟩ := hI.more hm
    rcases passed_held hI.inv with ⟨k', e1, e2, e3⟩ | ⟨e1, _⟩
    · rw [h2] at e1
      injection e1 with e1 _; injection e1 with e1 _; subst e1
      rw [e3, h4, List.append_assoc]
      exact List.prefix_append _ _
    · rw [h2] at e1; cases e1
  · rw [hI.zero (by omega)]
    unfold passed
    cases hI.inv.shape with
    | idle k a1 a2 a3 a4 a5 a6 =>
      rw [show g = _ from a6, show s.p.held = _ from a4, show s.p.returned.length = _ from a5]
      exact List.prefix_append _ _
    | consuming k a1 a3 a4 a5 a6 a7 =>
      rw [show g = _ from a7, show s.p.held = _ from a4, show s.p.returned.length = _ from a5, upTo_succ]
      exact List.prefix_append _ _
    | waiting a1 a3 a4 a6 a7 =>
      rw [show g = _ from a7, show s.p.held = _ from a4]
      exact List.prefix_refl _
    | finished a1 a2 a3 a4 a6 =>
      have := hI.fin a2
      unfold passed at this
      rw [this, show g = _ from a6]
      exact List.prefix_refl _

theorem destroy_iff (hO : Ok size c) {s : ISt α} {m : Nat} {g : List α} (hI : FInv rev size c s m g) : destroy c s = .terminated ↔
    ∃ k ∈ c.seq.take (min c.seqLength (min c.bufSize c.seqLength + passed s)), passed s ≤ k ∧ c.fails k = true := by
  have hpi := Prefetch.reach_inv hO.order.good hI.inv.reach
  have hsub : s.p.submitted = c.seq.take (min c.seqLength (min c.bufSize c.seqLength + passed s)) := by
    have h1 : s.p.submitted = c.seq.take s.p.nextread := hpi.sub
    have h2 : s.p.nextread = _ := hpi.nrEq
    rw [h1, h2]; rfl
  rw [← hsub]
  have hany : destroy c s = .terminated ↔ ∃ b, b < c.eff.nread ∧ bad c s b = true := by
    unfold destroy
    by_cases h : ((List.range c.eff.nread).any (bad c s)) = true
    · rw [if_pos h]
      simpa using h
    · rw [if_neg h]
      simp only [reduceCtorEq, false_iff]
      simpa using h
  rw [hany]
  constructor
  · rintro ⟨b, hb, hbad⟩
    unfold bad at hbad
    cases hr : s.p.reqs b with
    | none => rw [hr] at hbad; cases hbad
    | some x =>
      obtain ⟨n, st⟩ := x
      rw [hr] at hbad
      refine ⟨n, (hpi.req b n st hr).1, ?_, hbad⟩
      by_cases h : passed s ≤ n
      · exact h
      · have := hI.good n (by omega)
        simp only at hbad
        rw [hbad] at this; cases this
  · rintro ⟨k, hk, hp, hf⟩
    obtain ⟨b, hb, _, h⟩ := hpi.act k hk
    rcases h with ⟨h1, h2⟩ | ⟨st, h⟩
    · exfalso
      have h1 : k ∈ s.p.returned.map (·.1) := h1
      have h2 : k ∉ s.p.held.map (·.1) := h2
      rw [show s.p.returned.map (·.1) = _ from hpi.ret] at h1
      have h1 : k < s.p.returned.length := List.mem_range.1 h1
      rcases passed_held hI.inv with ⟨k', e1, e2, e3⟩ | ⟨e1, e2⟩
      · have : k = k' := by omega
        subst this
        rw [e1] at h2
        simp at h2
      · omega
    · have h : s.p.reqs b = some (k, st) := h
      exact ⟨b, hb, by unfold bad; rw [h]; exact hf⟩

end Foxxll.StreamFail
