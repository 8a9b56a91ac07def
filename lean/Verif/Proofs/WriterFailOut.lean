/-
The output stream with failing writes.
-/
import Verif.Proofs.WriterFailAny
import Verif.Proofs.Streams

set_option linter.unusedSimpArgs false

namespace Foxxll.WriterFail

open BufWriter (Bid upd isDone)

variable {α : Type}

theorem bw_work_transferred {n wbs : Nat} {w w' : BufWriter.St α} {p : Option Nat} {c : Nat} (h : BufWriter.work n wbs w p c = some w') : w'.transferred = w.transferred := by
  have hs : BufWriter.submitOne w c = some w' → w'.transferred = w.transferred := by
    intro h; obtain ⟨e, rest, _, rfl⟩ := submitOne_facts h; rfl
  unfold BufWriter.work at h
  split at h
  · cases h
  · split at h <;> (injection h with h; subst h; rfl)
  · split at h
    · injection h with h; subst h; rfl
    · exact hs h
  · cases hp : BufWriter.pollStage w p with
    | none => rw [hp] at h; cases h
    | some w1 =>
      rw [hp] at h
      have h1 : w1.transferred = w.transferred := by
        unfold BufWriter.pollStage at hp
        split at hp
        · injection hp with hp; subst hp; rfl
        · split at hp
          · cases hp
          · split at hp
            · injection hp with hp; subst hp; rfl
            · cases hp
      have h : BufWriter.takeStage w1 c = some w' := h
      unfold BufWriter.takeStage at h
      split at h
      · injection h with h; subst h; exact h1
      · split at h
        · cases h
        · split at h
          · injection h with h; subst h; exact h1
          · cases h
  · split at h
    · injection h with h; subst h; rfl
    · exact hs h
  · split at h
    · injection h with h; subst h; rfl
    · cases h

/-- A step of the client thread is one of the writer without failures, or a turn of the poll loop. -/
theorem work_base {n wbs : Nat} {s s' : St α} {c : Nat} (h : work n wbs s c = .ok s') :
    (s'.w = s.w ∧ s.w.pc = .getting) ∨ ∃ p k, BufWriter.work n wbs s.w p k = some s'.w := by
  have hl : ∀ c, lift s (BufWriter.work n wbs s.w none c) = .ok s' → ∃ p k, BufWriter.work n wbs s.w p k = some s'.w := by
    intro c h
    obtain ⟨w', h1, rfl⟩ := lift_ok h
    exact ⟨none, c, h1⟩
  have hs : submit n wbs s c = .ok s' → ∃ p k, BufWriter.work n wbs s.w p k = some s'.w := by
    intro h
    unfold submit at h
    split at h
    · cases h
    · split at h
      · exact (raise_ok h).elim
      · exact hl _ h
  unfold work at h
  split at h
  · cases h
  · exact Or.inr (hl _ h)
  · split at h
    · exact Or.inr (hl _ h)
    · exact Or.inr (hs h)
  · rename_i hpc
    rcases get_ok hpc h with rfl | ⟨w', p, k, h1, rfl, _⟩
    · exact Or.inl ⟨rfl, hpc⟩
    · exact Or.inr ⟨p, k, h1⟩
  · split at h
    · exact Or.inr (hl _ h)
    · exact Or.inr (hs h)
  · unfold drain at h
    split at h
    · exact Or.inr (hl _ h)
    · split at h
      · exact (raise_ok h).elim
      · cases h

/-- What a call of the stream does to the writer. -/
theorem call_shape {c : Stream.OCfg} {s o : Stream.OSt α} {k : Stream.Call α} (h : Stream.oStep c s (.call k) = .ok o) :
    s.closed = false ∧ s.w.pc = .idle ∧
    ((o.w = s.w ∧ o.closed = false) ∨ (o.closed = false ∧ ∃ v, BufWriter.step c.n c.wbs false s.w (.fill s.blk v) = some o.w) ∨
      (o.closed = false ∧ ∃ bid, BufWriter.step c.n c.wbs false s.w (.callWrite s.blk bid) = some o.w) ∨
      (o.closed = true ∧ BufWriter.step c.n c.wbs false s.w .callFlush = some o.w)) := by
  simp only [Stream.oStep] at h
  split at h
  · rename_i hg
    refine ⟨hg.2, hg.1, ?_⟩
    have hpass : ∀ t : Stream.OSt α, Stream.passBlock c t = .ok o → t.w = s.w → t.blk = s.blk → t.closed = s.closed →
        o.closed = false ∧ ∃ bid, BufWriter.step c.n c.wbs false s.w (.callWrite s.blk bid) = some o.w := by
      intro t h h1 h2 h3
      unfold Stream.passBlock at h
      split at h
      · cases h
      · rename_i bid _
        split at h
        · cases h
        · rename_i w hw
          injection h with h
          subst h
          rw [h1, h2] at hw
          exact ⟨h3.trans hg.2, bid, hw⟩
    cases k with
    | assign x =>
      simp only at h
      split at h
      · split at h
        · cases h
        · rename_i w hw
          injection h with h
          subst h
          exact Or.inr (Or.inl ⟨hg.2, _, hw⟩)
      · cases h
    | advance =>
      simp only at h
      split at h
      · exact Or.inr (Or.inr (Or.inl (hpass _ h rfl rfl rfl)))
      · injection h with h
        subst h
        exact Or.inl ⟨rfl, hg.2⟩
    | flush => exact Or.inr (Or.inr (Or.inl (hpass _ h rfl rfl rfl)))
    | close =>
      simp only at h
      split at h
      · split at h
        · cases h
        · rename_i w hw
          injection h with h
          subst h
          exact Or.inr (Or.inr (Or.inr ⟨rfl, hw⟩))
      · cases h
  · cases h

theorem upd_f (f : St α) (w : BufWriter.St α) {cl : Bool} (hc : f.closing = false) (hcl : cl = false) :
    ({ f with w := w, closing := cl, kept := if cl then f.w.held else f.kept } : St α) = { f with w := w } := by
  subst hcl
  cases f
  simp only at hc
  subst hc
  rfl

structure OI (c : Stream.OCfg) (s : OSt α) : Prop where
  cls : s.f.closing = s.closed
  r : RInv s.f
  cl : s.closed = true → s.f.w.pc = .flushing ∨ s.f.w.pc = .draining ∨ (s.f.w.pc = .idle ∧ s.f.failed = [] ∧ s.f.w.busy = [])
  st : s.f.failed = [] → s.f.stored = s.f.w.transferred
  zero : s.f.thrown = 0 → Stream.OReach c s.base ∧ Reach c.n c.wbs Legal s.f

theorem oinit {c : Stream.OCfg} (bufs : Nat → List α) (bids : Nat → Bid) (blk : Nat) (hb : ∀ b, (bufs b).length = c.size) : OI c (OSt.init c bufs bids blk) := by
  refine ⟨rfl, ?_, ?_, fun _ => rfl, fun _ => ⟨.start bufs bids blk hb, ?_⟩⟩
  · exact ⟨(fun b bid h => by cases h), (fun b h => by cases h), ⟨fun _ _ => rfl, fun _ => rfl⟩, (fun h => by cases h)⟩
  · intro h; cases h
  · exact Reach.next .callGet (.start bufs bids) trivial rfl

theorem oLift_ok {s s' : OSt α} {i : Bool} {r : Res (St (List α))} (h : oLift s i r = .ok s') :
    ∃ f, r = .ok f ∧ s'.f = f ∧ s'.closed = s.closed ∧
      s' = { s with f := f, blk := match i, f.w.held.getLast? with | true, some x => x | _, _ => s.blk } := by
  cases r with
  | ok f =>
    refine ⟨f, rfl, ?_⟩
    unfold oLift at h
    simp only at h
    cases i with
    | false => injection h with h; subst h; exact ⟨rfl, rfl, rfl⟩
    | true =>
      cases hg : f.w.held.getLast? with
      | none => rw [hg] at h; injection h with h; subst h; exact ⟨rfl, rfl, rfl⟩
      | some x => rw [hg] at h; injection h with h; subst h; exact ⟨rfl, rfl, rfl⟩
  | threw f => cases h
  | terminated => cases h
  | ub => cases h
  | blocked => cases h

theorem oLift_threw {s s' : OSt α} {i : Bool} {r : Res (St (List α))} (h : oLift s i r = .threw s') : ∃ f, r = .threw f ∧ s' = { s with f := f } := by
  cases r with
  | ok f =>
    unfold oLift at h
    simp only at h
    split at h <;> cases h
  | threw f => injection h with h; exact ⟨f, rfl, h.symm⟩
  | terminated => cases h
  | ub => cases h
  | blocked => cases h

theorem comp_closing {n wbs : Nat} {f f' : St α} {b : Nat} (h : step n wbs f (.done b) = .ok f' ∨ step n wbs f (.fail b) = .ok f') :
    f'.closing = f.closing ∧ (∃ bid, f.w.reqs b = some (bid, false)) ∧ f'.w.pc = f.w.pc ∧ f'.thrown = f.thrown ∧
      BufWriter.step n wbs false f.w (.done b) = some f'.w ∧ (f'.failed = [] → f.failed = [] ∧ (f.stored = f.w.transferred → f'.stored = f'.w.transferred)) := by
  rcases h with h | h
  · simp only [step] at h
    split at h
    · rename_i bid hr
      split at h
      · cases h
      · obtain ⟨w', h1, rfl⟩ := lift_ok h
        have h2 := done_facts hr h1
        refine ⟨rfl, ⟨bid, hr⟩, by rw [h2], rfl, h1, fun hf => ⟨hf, fun he => ?_⟩⟩
        show f.stored ++ [(bid, f.w.bufs b)] = w'.transferred
        rw [h2, he]
    · cases h
  · simp only [step] at h
    split at h
    · rename_i bid hr
      split at h
      · cases h
      · obtain ⟨w', h1, rfl⟩ := lift_ok h
        have h2 := done_facts hr h1
        exact ⟨rfl, ⟨bid, hr⟩, by rw [h2], rfl, h1, fun hf => by simp at hf⟩
    · cases h

theorem closed_work {n wbs : Nat} {f f' : St α} (hr : RInv f) {ch : Nat} (h : work n wbs f ch = .ok f')
    (hc : f.w.pc = .flushing ∨ f.w.pc = .draining ∨ (f.w.pc = .idle ∧ f.failed = [] ∧ f.w.busy = [])) :
    f'.w.pc = .flushing ∨ f'.w.pc = .draining ∨ (f'.w.pc = .idle ∧ f'.failed = [] ∧ f'.w.busy = []) := by
  rcases hc with hpc | hpc | ⟨hpc, _⟩
  · simp only [work, hpc] at h
    split at h
    · rename_i hb
      obtain ⟨w', h1, rfl⟩ := lift_ok h
      simp only [BufWriter.work, hpc, hb, if_true] at h1
      injection h1 with h1
      subst h1
      exact Or.inr (Or.inl rfl)
    · rename_i hb
      unfold submit at h
      split at h
      · cases h
      · split at h
        · exact (raise_ok h).elim
        · obtain ⟨w', h1, rfl⟩ := lift_ok h
          simp only [BufWriter.work, hpc] at h1
          rw [if_neg hb] at h1
          obtain ⟨e, rest, _, rfl⟩ := submitOne_facts h1
          exact Or.inl hpc
  · simp only [work, hpc] at h
    obtain ⟨h1, w', h2, rfl⟩ := drain_ok hr.bad h
    simp only [BufWriter.work, hpc] at h2
    split at h2
    · injection h2 with h2
      subst h2
      exact Or.inr (Or.inr ⟨rfl, hr.fails.2 h1, rfl⟩)
    · cases h2
  · simp only [work, hpc] at h
    cases h

theorem ostep_oi {c : Stream.OCfg} (hs : 0 < c.size) {s s' : OSt α} (hi : OI c s) {op : OOp α} (h : oStep c s op = .ok s') : OI c s' := by
  cases op with
  | call k =>
    simp only [oStep] at h
    split at h
    · rename_i o ho
      injection h with h
      obtain ⟨h1, h2, h3⟩ := call_shape ho
      have hb : s'.base = o := by rw [← h]; rfl
      have h1 : s.closed = false := h1
      have h2 : s.f.w.pc = .idle := h2
      have hcf : s.f.closing = false := hi.cls.trans h1
      have key : (∃ op', step c.n c.wbs s.f op' = .ok s'.f ∧ (s.f.thrown = 0 → Legal s.f op')) ∨ s'.f = s.f := by
        rcases h3 with ⟨h3, h4⟩ | ⟨h4, v, h3⟩ | ⟨h4, bid, h3⟩ | ⟨h4, h3⟩
        · right
          rw [← h]
          refine (upd_f s.f o.w hcf h4).trans ?_
          rw [h3]
          rfl
        · left
          refine ⟨.fill s.blk v, ?_, fun h0 => ?_⟩
          · have h3 : BufWriter.step c.n c.wbs false s.f.w (.fill s.blk v) = some o.w := h3
            simp only [step, call, hcf]
            rw [h3, ← h]
            exact congrArg Res.ok (upd_f s.f o.w hcf h4).symm
          · have := (Stream.oreach_inv hs (hi.zero h0).1).op h1 h2
            show s.blk ∈ s.f.w.held
            rw [show s.f.w.held = [s.blk] from this]
            simp
        · left
          refine ⟨.callWrite s.blk bid, ?_, fun h0 => ?_⟩
          · have h3 : BufWriter.step c.n c.wbs false s.f.w (.callWrite s.blk bid) = some o.w := h3
            simp only [step, call, hcf]
            rw [h3, ← h]
            exact congrArg Res.ok (upd_f s.f o.w hcf h4).symm
          · have := (Stream.oreach_inv hs (hi.zero h0).1).op h1 h2
            show s.blk ∈ s.f.w.held
            rw [show s.f.w.held = [s.blk] from this]
            simp
        · left
          refine ⟨.callClose, ?_, fun _ => trivial⟩
          have h3 : BufWriter.step c.n c.wbs false s.f.w .callFlush = some o.w := h3
          simp only [step, hcf]
          rw [h3, ← h]
          simp [lift, h4]
      have hth : s'.f.thrown = s.f.thrown := by rw [← h]
      have hfail : s'.f.failed = s.f.failed := by rw [← h]
      have htr : s'.f.w.transferred = s.f.w.transferred := by
        rw [← h]
        show o.w.transferred = s.f.w.transferred
        rcases h3 with ⟨h3, _⟩ | ⟨_, v, h3⟩ | ⟨_, bid, h3⟩ | ⟨_, h3⟩
        · rw [h3]; rfl
        all_goals
          simp only [BufWriter.step] at h3
          rw [if_pos (show s.base.w.pc = .idle from h2)] at h3
          rw [← Option.some.inj h3]
          rfl
      refine ⟨by rw [← h], ?_, ?_, ?_, ?_⟩
      · rcases key with ⟨op', k1, _⟩ | k1
        · exact step_rinv hi.r k1
        · rw [k1]; exact hi.r
      · intro hc
        have hc : o.closed = true := by rw [← h] at hc; exact hc
        left
        rw [← h]
        rcases h3 with ⟨_, h4⟩ | ⟨h4, _⟩ | ⟨h4, _⟩ | ⟨_, h3⟩
        · rw [hc] at h4; cases h4
        · rw [hc] at h4; cases h4
        · rw [hc] at h4; cases h4
        · simp only [BufWriter.step] at h3
          rw [if_pos (show s.base.w.pc = .idle from h2)] at h3
          show o.w.pc = _
          rw [← Option.some.inj h3]
      · intro hf
        rw [hfail] at hf
        rw [htr, ← hi.st hf, ← h]
      · intro h0
        rw [hth] at h0
        obtain ⟨z1, z2⟩ := hi.zero h0
        refine ⟨by rw [hb]; exact z1.next (.call k) ho, ?_⟩
        rcases key with ⟨op', k1, k2⟩ | k1
        · exact z2.next op' (k2 h0) k1
        · rw [k1]; exact z2
    · cases h
    · cases h
    · cases h
  | work ch =>
    obtain ⟨f, h1, h2, h3, h4⟩ := oLift_ok h
    have h1' : work c.n c.wbs s.f ch = .ok f := h1
    obtain ⟨w1, w2, w3, w4, w5, w6⟩ := work_change h1'
    have htr : f.w.transferred = s.f.w.transferred := by
      rcases work_base h1' with ⟨hb, _⟩ | ⟨p, k, hb⟩
      · rw [hb]
      · exact bw_work_transferred hb
    refine ⟨by rw [h2, h3, w5]; exact hi.cls, by rw [h2]; exact step_rinv hi.r h1, ?_, ?_, ?_⟩
    · intro hc
      rw [h3] at hc
      rw [h2]
      exact closed_work hi.r h1' (hi.cl hc)
    · intro hf
      rw [h2] at hf ⊢
      rw [w3] at hf
      rw [w6, htr]
      exact hi.st hf
    · intro h0
      rw [h2, w4] at h0
      obtain ⟨z1, z2⟩ := hi.zero h0
      refine ⟨?_, by rw [h2]; exact z2.next (.work ch) trivial h1⟩
      rcases work_base h1' with ⟨hb, hpc⟩ | ⟨p, k, hb⟩
      · have hh : s.f.w.held = [] := ((Stream.oreach_inv hs z1).busy (by show s.f.w.pc ≠ .idle; rw [hpc]; simp)).2
        have : s'.base = s.base := by
          rw [h4]
          simp [OSt.base, hb, hh]
        rw [this]
        exact z1
      · refine z1.next (.work p k) ?_
        have : BufWriter.step c.n c.wbs false s.base.w (.work p k) = some f.w := hb
        simp only [Stream.oStep, this]
        rw [h4]
        cases f.w.held.getLast? <;> rfl
  | done b =>
    have h : oLift s false (step c.n c.wbs s.f (.done b)) = .ok s' := h
    obtain ⟨f, h1, h2, h3, h4⟩ := oLift_ok h
    obtain ⟨c1, ⟨bid, hr⟩, c3, c4, c5, c6⟩ := comp_closing (Or.inl h1)
    refine ⟨by rw [h2, h3, c1]; exact hi.cls, by rw [h2]; exact step_rinv hi.r h1, ?_, ?_, ?_⟩
    · intro hc
      rw [h3] at hc
      rw [h2, c3]
      rcases hi.cl hc with h | h | ⟨_, _, h⟩
      · exact Or.inl h
      · exact Or.inr (Or.inl h)
      · have := hi.r.pend b bid hr
        rw [h] at this
        cases this
    · intro hf
      rw [h2] at hf ⊢
      exact (c6 hf).2 (hi.st (c6 hf).1)
    · intro h0
      rw [h2, c4] at h0
      obtain ⟨z1, z2⟩ := hi.zero h0
      refine ⟨?_, by rw [h2]; exact z2.next (.done b) trivial h1⟩
      refine z1.next (.done b) ?_
      have : BufWriter.step c.n c.wbs false s.base.w (.done b) = some f.w := c5
      simp only [Stream.oStep, this]
      rw [h4]
      rfl
  | fail b =>
    have h : oLift s false (step c.n c.wbs s.f (.fail b)) = .ok s' := h
    obtain ⟨f, h1, h2, h3, h4⟩ := oLift_ok h
    obtain ⟨c1, ⟨bid, hr⟩, c3, c4, c5, c6⟩ := comp_closing (Or.inr h1)
    refine ⟨by rw [h2, h3, c1]; exact hi.cls, by rw [h2]; exact step_rinv hi.r h1, ?_, ?_, ?_⟩
    · intro hc
      rw [h3] at hc
      rw [h2, c3]
      rcases hi.cl hc with h | h | ⟨_, _, h⟩
      · exact Or.inl h
      · exact Or.inr (Or.inl h)
      · have := hi.r.pend b bid hr
        rw [h] at this
        cases this
    · intro hf
      rw [h2] at hf ⊢
      exact (c6 hf).2 (hi.st (c6 hf).1)
    · intro h0
      rw [h2, c4] at h0
      obtain ⟨z1, z2⟩ := hi.zero h0
      refine ⟨?_, by rw [h2]; exact z2.next (.fail b) trivial h1⟩
      refine z1.next (.done b) ?_
      have : BufWriter.step c.n c.wbs false s.base.w (.done b) = some f.w := c5
      simp only [Stream.oStep, this]
      rw [h4]
      rfl

theorem othrew_oi {c : Stream.OCfg} {s s' : OSt α} (hi : OI c s) {op : OOp α} (h : oStep c s op = .threw s') : OI c s' := by
  have key : ∀ f ch, step c.n c.wbs s.f ch = .threw f → s' = { s with f := f } → OI c s' := by
    intro f ch h1 h2
    obtain ⟨k, _, h3⟩ := step_threw h1
    obtain ⟨⟨x, hx⟩, _, _, _, w5, w6, w7, w8, w9, w10, w11⟩ := work_threw_any h3
    have hne : f.failed ≠ [] := by
      rw [w5]
      intro h
      have := hi.r.fails.1 h x
      rw [hx] at this
      cases this
    rw [h2]
    have hc : s.closed = false := hi.cls.symm.trans w7
    refine ⟨w9.trans hc.symm, threw_rinv hi.r h1, ?_, fun h => absurd h hne, ?_⟩
    · intro h
      have h : s.closed = true := h
      rw [hc] at h
      cases h
    · intro h
      have h : f.thrown = 0 := h
      omega
  cases op with
  | call k =>
    simp only [oStep] at h
    split at h <;> cases h
  | work ch => obtain ⟨f, h1, h2⟩ := oLift_threw h; exact key f _ h1 h2
  | done b => obtain ⟨f, h1, h2⟩ := oLift_threw (r := step c.n c.wbs s.f (.done b)) (i := false) h; exact key f _ h1 h2
  | fail b => obtain ⟨f, h1, h2⟩ := oLift_threw (r := step c.n c.wbs s.f (.fail b)) (i := false) h; exact key f _ h1 h2

theorem oreach_oi {c : Stream.OCfg} (hs : 0 < c.size) {s : OSt α} (h : OReach c s) : OI c s := by
  induction h with
  | start bufs bids blk hb => exact oinit bufs bids blk hb
  | next op _ h ih => exact ostep_oi hs ih h
  | threw op _ h ih => exact othrew_oi ih h

end Foxxll.WriterFail
