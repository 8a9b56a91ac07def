import Verif.Proofs.WriterAlive
import Verif.Proofs.WriterFailOut
import Verif.Spec.OStreamAlive
/-
Lemmas for `Verif.Props.OStreamAlive`: the output stream with failing writes does not block itself, although after an exception it
breaks the protocol of the writer.
-/
namespace Foxxll.WriterFail

open BufWriter (Bid upd isDone)

variable {α : Type}

/-! ### Any client of the writer -/

/-- Every block in the list of busy blocks has a request. -/
theorem step_busy {n wbs : Nat} {s s' : St α} (hi : ∀ b ∈ s.w.busy, s.w.reqs b ≠ none) {op : Op α} (h : step n wbs s op = .ok s') :
    ∀ b ∈ s'.w.busy, s'.w.reqs b ≠ none := by
  have hupd : ∀ (x : Nat) (v : Bid × Bool) (b : Nat), (b ∈ s.w.busy ∨ b = x) → upd s.w.reqs x (some v) b ≠ none := by
    intro x v b hb
    unfold upd
    split
    · simp
    · rename_i hne
      rcases hb with hb | hb
      · exact hi b hb
      · exact absurd hb hne
  rcases step_change h with ⟨a, _⟩ | ⟨b, bid, hr, h1, h2, _⟩
  · cases a with
    | same a b => rw [a, b]; exact hi
    | scan a => rw [a]; exact hi
    | took a b => rw [a, b]; exact hi
    | got i x _ _ _ a b =>
      rw [a, b]
      exact fun y hy => hi y (List.mem_of_mem_eraseIdx hy)
    | sub x bid _ a b =>
      rw [a, b]
      intro y hy
      refine hupd x _ y ?_
      simpa using hy
    | clear _ a b => rw [a]; intro y hy; cases hy
  · rw [h1, h2]
    exact fun y hy => hupd b _ y (.inl hy)

theorem reach_busy {n wbs : Nat} {legal : St α → Op α → Prop} {s : St α} (h : Reach n wbs legal s) : ∀ b ∈ s.w.busy, s.w.reqs b ≠ none := by
  induction h with
  | start bufs bids => intro b hb; cases hb
  | next op _ _ hs ih => exact step_busy ih hs
  | threw op _ _ hs ih =>
    obtain ⟨k, _, h3⟩ := step_threw hs
    obtain ⟨_, h1, h2, _⟩ := work_threw_any h3
    rw [h1, h2]
    exact ih

theorem all_done {s : St α} (hi : ∀ b ∈ s.w.busy, s.w.reqs b ≠ none) (hn : ∀ b bid, s.w.reqs b ≠ some (bid, false)) : ∀ b ∈ s.w.busy, isDone s.w b = true := by
  intro b hb
  unfold isDone
  cases hr : s.w.reqs b with
  | none => exact absurd hr (hi b hb)
  | some v =>
    obtain ⟨bid, d⟩ := v
    cases d with
    | true => rfl
    | false => exact absurd hr (hn b bid)

theorem submit_any {n wbs : Nat} {s : St α} (hb : s.w.batch ≠ []) (hpc : (∃ b bid, s.w.pc = .writing b bid true) ∨ s.w.pc = .flushing)
    (hn : ∀ b bid, s.w.reqs b ≠ some (bid, false)) (c : Nat) : submit n wbs s c ≠ .blocked := by
  obtain ⟨⟨e, rest⟩, hpop⟩ := BufWriter.popMin_isSome (c := c) hb
  have he : s.w.batch.isEmpty = false := by simpa using hb
  unfold submit
  rw [hpop]
  simp only
  split
  · exact raise_blocked _ _
  · refine lift_some ?_
    have hw : ∃ w, BufWriter.submitOne s.w c = some w := by
      unfold BufWriter.submitOne
      rw [hpop]
      simp only
      split
      · rename_i bid hr
        exact absurd hr (hn e.2 bid)
      · exact ⟨_, rfl⟩
    obtain ⟨w, hw⟩ := hw
    refine ⟨w, ?_⟩
    rcases hpc with ⟨b, bid, hpc⟩ | hpc <;> simp [BufWriter.work, hpc, he, hw]

theorem get_any {n wbs : Nat} {s : St α} (hpc : s.w.pc = .getting) (hall : ∀ b ∈ s.w.busy, isDone s.w b = true) (hne : s.w.busy ≠ []) :
    get n wbs s 0 ≠ .blocked := by
  unfold get
  split
  · rename_i x hx
    split
    · rename_i hd
      split
      · exact raise_blocked _ _
      · refine ret_some ?_
        simp only [BufWriter.work, hpc, BufWriter.pollStage, hx, hd, if_true, Option.bind_some, BufWriter.takeStage, List.getLast?_append, List.getLast?_singleton, Option.some_or]
        exact ⟨_, rfl⟩
    · simp
  · split
    · rename_i hf
      refine ret_some ?_
      simp only [BufWriter.work, hpc, BufWriter.pollStage, Option.bind_some, BufWriter.takeStage, List.getLast?_eq_some_getLast hf]
      exact ⟨_, rfl⟩
    · rename_i hf
      have hf : s.w.free = [] := by simpa using hf
      split
      · split
        · rename_i k hk
          obtain ⟨h1, h2, _⟩ := List.findIdx?_eq_some_iff_getElem.1 hk
          exact found_alive hpc hf (List.getElem?_eq_getElem h1) h2 _
        · simp
      · cases hb : s.w.busy with
        | nil => exact absurd hb hne
        | cons x rest => exact found_alive hpc hf (k := 0) (by rw [hb]; rfl) (hall x (by rw [hb]; simp)) _

theorem drain_any {n wbs : Nat} {s : St α} (hpc : s.w.pc = .draining) (hall : ∀ b ∈ s.w.busy, isDone s.w b = true) (c : Nat) :
    drain n wbs s c ≠ .blocked := by
  unfold drain
  split
  · refine lift_some ?_
    simp only [BufWriter.work, hpc, if_pos (List.all_eq_true.2 hall)]
    exact ⟨_, rfl⟩
  · rename_i x r hd
    rw [if_pos (hall x (dropWhile_head hd).1)]
    exact raise_blocked _ _

/-- After a failure the client thread proceeds when no request is in flight, whatever the client has done. -/
theorem work_any {n wbs : Nat} {legal : St α → Op α → Prop} {s : St α} (h : Reach n wbs legal s) (hpc : s.w.pc ≠ .idle) (hf : s.failed ≠ [])
    (hn : ∀ b bid, s.w.reqs b ≠ some (bid, false)) : work n wbs s 0 ≠ .blocked := by
  have hr := reach_rinv h
  have hall := all_done (reach_busy h) hn
  have hne : s.w.busy ≠ [] := by
    intro he
    refine hf (hr.fails.2 fun b => ?_)
    cases hb : s.err b with
    | false => rfl
    | true =>
      have := (hr.bad b hb).1
      rw [he] at this
      cases this
  unfold work
  cases hp : s.w.pc with
  | idle => exact absurd hp hpc
  | writing b bid f =>
    cases f with
    | false =>
      refine lift_some ?_
      simp only [BufWriter.work, hp]
      split <;> exact ⟨_, rfl⟩
    | true =>
      simp only
      split
      · rename_i he
        refine lift_some ?_
        simp only [BufWriter.work, hp, he, if_true]
        exact ⟨_, rfl⟩
      · rename_i he
        exact submit_any (by simpa using he) (.inl ⟨b, bid, hp⟩) hn 0
  | getting => exact get_any hp hall hne
  | flushing =>
    simp only
    split
    · rename_i he
      refine lift_some ?_
      simp only [BufWriter.work, hp, he, if_true]
      exact ⟨_, rfl⟩
    · rename_i he
      exact submit_any (by simpa using he) (.inr hp) hn 0
  | draining => exact drain_any hp hall 0

/-! ### The number of steps -/

theorem bw_work_written {n wbs : Nat} {w w' : BufWriter.St α} {p : Option Nat} {c : Nat} (h : BufWriter.work n wbs w p c = some w') : w'.written = w.written := by
  have hs : BufWriter.submitOne w c = some w' → w'.written = w.written := by
    intro h; obtain ⟨e, rest, _, rfl⟩ := submitOne_facts h; rfl
  unfold BufWriter.work at h
  split at h
  · cases h
  · split at h <;> (injection h with h; subst h; rfl)
  · split at h
    · injection h with h; subst h; rfl
    · exact hs h
  · cases hp : BufWriter.pollStage w p with
    | none => rw [hp] at h; cases h
    | some w1 =>
      rw [hp] at h
      have h1 : w1.written = w.written := by
        unfold BufWriter.pollStage at hp
        split at hp
        · injection hp with hp; subst hp; rfl
        · split at hp
          · cases hp
          · split at hp
            · injection hp with hp; subst hp; rfl
            · cases hp
      have h : BufWriter.takeStage w1 c = some w' := h
      unfold BufWriter.takeStage at h
      split at h
      · injection h with h; subst h; exact h1
      · split at h
        · cases h
        · split at h
          · injection h with h; subst h; exact h1
          · cases h
  · split at h
    · injection h with h; subst h; rfl
    · exact hs h
  · split at h
    · injection h with h; subst h; rfl
    · cases h

theorem countP_lt {p q : Nat → Bool} : ∀ {l : List Nat}, (∀ x, q x = true → p x = true) → (∃ b ∈ l, p b = true ∧ q b = false) → l.countP q < l.countP p
  | [], _, h => by obtain ⟨b, hb, _⟩ := h; cases hb
  | a :: l, hpq, ⟨b, hb, h1, h2⟩ => by
    rw [List.countP_cons, List.countP_cons]
    have hle : l.countP q ≤ l.countP p := List.countP_mono_left fun x _ => hpq x
    rcases List.mem_cons.1 hb with rfl | hb
    · rw [h1, h2]; simp; omega
    · have := countP_lt hpq ⟨b, hb, h1, h2⟩
      have ha := hpq a
      cases hq : q a with
      | false => simp; omega
      | true => rw [ha hq]; simp; omega

/-- Blocks to submit and stages of the method; requests in flight; turns of the poll loop. -/
def oLeft (s : St α) : Nat × Nat × Nat :=
  (2 * s.w.batch.length + BufWriter.rank s.w.pc, s.w.busy.countP (fun x => !isDone s.w x), s.w.busy.length + 2 - s.scan)

def OLess (a b : Nat × Nat × Nat) : Prop := a.1 < b.1 ∨ a.1 = b.1 ∧ (a.2.1 < b.2.1 ∨ a.2.1 = b.2.1 ∧ a.2.2 < b.2.2)

theorem oless_wf : WellFounded OLess := by
  have key : ∀ i j k, Acc OLess (i, j, k) := by
    intro i
    induction i using Nat.strongRecOn with
    | _ i ih1 =>
      intro j
      induction j using Nat.strongRecOn with
      | _ j ih2 =>
        intro k
        induction k using Nat.strongRecOn with
        | _ k ih3 =>
          refine ⟨_, fun y hy => ?_⟩
          obtain ⟨a, b, c⟩ := y
          rcases hy with h | ⟨h, h' | ⟨h', h''⟩⟩
          · exact ih1 a h b c
          · simp only at h; subst h; exact ih2 b h' c
          · simp only at h h'; subst h; subst h'; exact ih3 c h''
  exact ⟨fun x => key x.1 x.2.1 x.2.2⟩

theorem bw_work_less {n wbs : Nat} {w w' : BufWriter.St α} {p : Option Nat} {c : Nat} (h : BufWriter.work n wbs w p c = some w') :
    2 * w'.batch.length + BufWriter.rank w'.pc < 2 * w.batch.length + BufWriter.rank w.pc := by
  have h1 := BufWriter.work_msr h
  unfold BufWriter.msr at h1
  rw [bw_work_written h, bw_work_transferred h] at h1
  omega

theorem work_less {n wbs : Nat} {s s' : St α} {c : Nat} (h : work n wbs s c = .ok s') : OLess (oLeft s') (oLeft s) := by
  by_cases hpc : s.w.pc = .getting
  · have hg : get n wbs s c = .ok s' := by simpa only [work, hpc] using h
    rcases get_ok hpc hg with h1 | ⟨w', p, k, h1, h2, _⟩
    · have h2 := scan_le (h1 ▸ hg)
      rw [h1]
      refine .inr ⟨rfl, .inr ⟨rfl, ?_⟩⟩
      show s.w.busy.length + 2 - (s.scan + 1) < s.w.busy.length + 2 - s.scan
      omega
    · rw [h2]
      exact .inl (bw_work_less h1)
  · rcases work_base h with ⟨_, h1⟩ | ⟨p, k, h1⟩
    · exact absurd h1 hpc
    · exact .inl (bw_work_less h1)

theorem comp_less {n wbs : Nat} {s s' : St α} (hr : RInv s) {b : Nat} (h : step n wbs s (.done b) = .ok s' ∨ step n wbs s (.fail b) = .ok s') :
    OLess (oLeft s') (oLeft s) := by
  obtain ⟨_, ⟨bid, hb⟩, _, _, h1, _⟩ := comp_closing h
  have h2 := done_facts hb h1
  refine .inr ⟨?_, .inl ?_⟩
  · show 2 * s'.w.batch.length + BufWriter.rank s'.w.pc = _
    rw [h2]
    rfl
  · show s'.w.busy.countP (fun x => !isDone s'.w x) < s.w.busy.countP (fun x => !isDone s.w x)
    have hbusy : s'.w.busy = s.w.busy := by rw [h2]
    rw [hbusy]
    refine countP_lt (fun x hx => ?_) ⟨b, hr.pend b bid hb, by simp [pend_done hb], ?_⟩
    · cases hd : isDone s.w x with
      | false => rfl
      | true =>
        have := isDone_upd' (w := s.w) (w' := s'.w) (b := b) (bid := bid) (by rw [h2]) x (.inl hd)
        rw [this] at hx
        cases hx
    · have := isDone_upd' (w := s.w) (w' := s'.w) (b := b) (bid := bid) (by rw [h2]) b (.inr rfl)
      rw [this]
      rfl

/-! ### The stream as a client -/

theorem ocall_any {c : Stream.OCfg} {s s' : OSt α} (hcls : s.f.closing = s.closed) {k : Stream.Call α} (h : oStep c s (.call k) = .ok s') :
    (∃ op', step c.n c.wbs s.f op' = .ok s'.f) ∨ s'.f = s.f := by
  simp only [oStep] at h
  split at h
  · rename_i o ho
    injection h with h
    obtain ⟨h1, h2, h3⟩ := call_shape ho
    have h1 : s.closed = false := h1
    have hcf : s.f.closing = false := hcls.trans h1
    rcases h3 with ⟨h3, h4⟩ | ⟨h4, v, h3⟩ | ⟨h4, bid, h3⟩ | ⟨h4, h3⟩
    · right
      rw [← h]
      refine (upd_f s.f o.w hcf h4).trans ?_
      rw [h3]
      rfl
    · left
      refine ⟨.fill s.blk v, ?_⟩
      have h3 : BufWriter.step c.n c.wbs false s.f.w (.fill s.blk v) = some o.w := h3
      simp only [step, call, hcf]
      rw [h3, ← h]
      exact congrArg Res.ok (upd_f s.f o.w hcf h4).symm
    · left
      refine ⟨.callWrite s.blk bid, ?_⟩
      have h3 : BufWriter.step c.n c.wbs false s.f.w (.callWrite s.blk bid) = some o.w := h3
      simp only [step, call, hcf]
      rw [h3, ← h]
      exact congrArg Res.ok (upd_f s.f o.w hcf h4).symm
    · left
      refine ⟨.callClose, ?_⟩
      have h3 : BufWriter.step c.n c.wbs false s.f.w .callFlush = some o.w := h3
      simp only [step, hcf]
      rw [h3, ← h]
      simp [lift, h4]
  · cases h
  · cases h
  · cases h

/-- The writer of the stream is in a state that some client reaches. -/
theorem oreach_any {c : Stream.OCfg} (hs : 0 < c.size) {s : OSt α} (h : OReach c s) : Reach c.n c.wbs (fun _ _ => True) s.f := by
  induction h with
  | start bufs bids blk hb => exact Reach.next .callGet (.start bufs bids) trivial rfl
  | @next s s' op hr h ih =>
    cases op with
    | call k =>
      rcases ocall_any (oreach_oi hs hr).cls h with ⟨op', h1⟩ | h1
      · exact ih.next op' trivial h1
      · rw [h1]; exact ih
    | work ch => obtain ⟨f, h1, h2, _⟩ := oLift_ok h; rw [h2]; exact ih.next _ trivial h1
    | done b => obtain ⟨f, h1, h2, _⟩ := oLift_ok (r := step c.n c.wbs s.f (.done b)) (i := false) h; rw [h2]; exact ih.next _ trivial h1
    | fail b => obtain ⟨f, h1, h2, _⟩ := oLift_ok (r := step c.n c.wbs s.f (.fail b)) (i := false) h; rw [h2]; exact ih.next _ trivial h1
  | @threw s s' op hr h ih =>
    cases op with
    | call k =>
      simp only [oStep] at h
      split at h <;> cases h
    | work ch => obtain ⟨f, h1, h2⟩ := oLift_threw h; rw [h2]; exact ih.threw _ trivial h1
    | done b => obtain ⟨f, h1, h2⟩ := oLift_threw (r := step c.n c.wbs s.f (.done b)) (i := false) h; rw [h2]; exact ih.threw _ trivial h1
    | fail b => obtain ⟨f, h1, h2⟩ := oLift_threw (r := step c.n c.wbs s.f (.fail b)) (i := false) h; rw [h2]; exact ih.threw _ trivial h1

theorem oLift_blocked {s : OSt α} {i : Bool} {r : Res (St (List α))} (h : r ≠ .blocked) : oLift s i r ≠ .blocked := by
  cases r with
  | ok f => unfold oLift; simp only; split <;> simp
  | blocked => exact absurd rfl h
  | _ => simp [oLift]

theorem oLift_ub {s : OSt α} {i : Bool} {r : Res (St (List α))} (h : r ≠ .ub) : oLift s i r ≠ .ub := by
  cases r with
  | ok f => unfold oLift; simp only; split <;> simp
  | ub => exact absurd rfl h
  | _ => simp [oLift]

theorem oinside_less {c : Stream.OCfg} (hs : 0 < c.size) {s s' : OSt α} (hr : OReach c s) {op : OOp α} (ho : OInside op) (h : oStep c s op = .ok s') :
    OLess (oLeft s'.f) (oLeft s.f) := by
  have hi := (oreach_oi hs hr).r
  cases ho with
  | work ch => obtain ⟨f, h1, h2, _⟩ := oLift_ok h; rw [h2]; exact work_less h1
  | done b => obtain ⟨f, h1, h2, _⟩ := oLift_ok (r := step c.n c.wbs s.f (.done b)) (i := false) h; rw [h2]; exact comp_less hi (.inl h1)
  | fail b => obtain ⟨f, h1, h2, _⟩ := oLift_ok (r := step c.n c.wbs s.f (.fail b)) (i := false) h; rw [h2]; exact comp_less hi (.inr h1)

end Foxxll.WriterFail
