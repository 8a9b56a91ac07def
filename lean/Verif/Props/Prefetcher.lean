/-
Property C15: the prefetcher.
-/
import Verif.Proofs.Prefetcher
import Verif.Props.AsyncSchedule
import Verif.Proofs.PrefetcherAux

namespace Foxxll.Prefetch

variable {α : Type}

/-- **C15 is false** if `std::condition_variable::wait` may return spuriously, as C++ allows:
`onoff_switch::wait_for_on` does not test the switch again, the consumer then gets a buffer
whose data has not arrived. -/
theorem C15_false : ∃ (c : Cfg Nat) (s : St Nat), OrderOk c ∧ Reach c true s ∧
    (0, 0) ∈ s.held ∧ s.bufs 0 = none := by
  let c : Cfg Nat := { seqLength := 1, seq := [0], bufSize := 1, disk := fun _ => 7 }
  have h : Reach c true _ :=
    Reach.next .spurious (Reach.next .pull (Reach.start rfl) (by show 0 < 1; decide) (by simp) rfl) trivial (by simp) rfl
  exact ⟨c, _, ⟨by decide, by decide, by decide⟩, h, List.mem_singleton.2 rfl, rfl⟩

/-- Without spurious wake-ups, a consumer that respects the protocol never runs into undefined
behaviour or a failing assert, whatever the order in which the reads complete. -/
theorem C15_safe_partial (c : Cfg α) (h : OrderOk c) :
    (∃ s, init c = .ok s) ∧
    ∀ s, Reach c false s → ∀ op, Legal c s op → op ≠ .spurious → step c s op ≠ .ub ∧ step c s op ≠ .assertFail := by
  refine ⟨?_, ?_⟩
  · obtain ⟨s, hs, _⟩ := init_spec h.good
    exact ⟨s, hs⟩
  · intro s hr op hl hsp
    have := step_inv h.good (reach_inv h.good hr) op hl hsp
    exact ⟨this.1, this.2.1⟩

/-- The k-th buffer handed out is that of the k-th block, and as long as the consumer holds it,
it contains exactly that block's data and no data can arrive for it. -/
theorem C15_order_and_content_partial (c : Cfg α) (h : OrderOk c) (s : St α) (hr : Reach c false s) :
    (∀ n k b : Nat, s.returned[n]? = some (k, b) → k = n) ∧
    (∀ k b, (k, b) ∈ s.held → s.bufs b = some (c.disk k) ∧ ∀ s', step c s (.copy b) ≠ .ok s') := by
  have hi := reach_inv h.good hr
  refine ⟨?_, ?_⟩
  · intro n k b hn
    have h1 : (s.returned.map (·.1))[n]? = some k := by rw [List.getElem?_map, hn]; rfl
    rw [hi.ret] at h1
    obtain ⟨hlt, he⟩ := List.getElem?_eq_some_iff.1 h1
    rw [List.getElem_range] at he
    exact he.symm
  · intro k b hk
    obtain ⟨_, st, hst, hreq⟩ := hi.held k b hk
    have hne : st ≠ .issued := by rintro rfl; simp [Stage.on] at hst
    refine ⟨(hi.req b k st hreq).2.2.2.2 hne, ?_⟩
    intro s' hs
    simp only [step, hreq] at hs
    cases st <;> simp_all

/-- A buffer returned by the waiting consumer: the next block in consumption order, with its data
in place. -/
theorem C15_hand_out_partial (c : Cfg α) (h : OrderOk c) (s s' : St α) (hr : Reach c false s)
    (hw : step c s .wake = .ok s') :
    ∃ b, s'.returned = s.returned ++ [(s.returned.length, b)] ∧ (s.returned.length, b) ∈ s'.held ∧
      s'.bufs b = some (c.disk s.returned.length) := by
  have hi := reach_inv h.good hr
  cases hwt : s.waiting with
  | none => simp [step, hwt] at hw
  | some k =>
    by_cases hc : s.compl k = true
    · obtain ⟨b, _, _, h3, h4, h5, _⟩ := handOut_inv hi hwt hc
      simp only [step, hwt, if_pos hc, h5, Res.ok.injEq] at hw
      subst hw
      refine ⟨b, ?_, ?_, ?_⟩
      · simp only; rw [← h3]
      · simp only; rw [← h3]; simp
      · simp only; rw [← h3]; exact h4
    · simp [step, hwt, hc] at hw

/-- Each block is read at most once, in the prefetch order; after all blocks were handed out
every block was read exactly once. -/
theorem C15_read_once_partial (c : Cfg α) (h : OrderOk c) (s : St α) (hr : Reach c false s) :
    s.submitted = c.seq.take s.nextread ∧ s.submitted.Nodup ∧
    (s.returned.length = c.seqLength → s.submitted.Perm (List.range c.seqLength)) := by
  have hi := reach_inv h.good hr
  have hn : s.submitted.Nodup := by
    rw [hi.sub]; exact h.good.nodup.sublist (List.take_sublist _ _)
  refine ⟨hi.sub, hn, ?_⟩
  intro hl
  -- every block handed out was submitted
  have hall : ∀ k, k < c.seqLength → k ∈ s.submitted := by
    intro k hk
    by_cases hks : k ∈ s.submitted
    · exact hks
    · -- the first block not submitted could not have been handed out
      exfalso
      have hret : k ∈ s.returned.map (·.1) := by rw [hi.ret, hl]; exact List.mem_range.2 hk
      exact hks (returned_submitted h.good hr k hret)
  rw [List.perm_iff_count]
  intro b
  rw [List.count_range]
  by_cases hb : b < c.seqLength
  · rw [if_pos hb]
    have h1 := List.nodup_iff_count.1 hn b
    have h2 := List.count_pos_iff.2 (hall b hb)
    omega
  · rw [if_neg hb, List.count_eq_zero]
    intro hm
    rw [hi.sub] at hm
    exact hb (h.good.lt (List.mem_of_mem_take hm))

/-- With a prefetch order in which block `k` is among the first `k + bufSize` ones, a consumer
that holds at most one buffer at a time never waits for a block that was not requested: the
switch is on or the request of its buffer can advance. -/
theorem C15_no_deadlock_partial (c : Cfg α) (h : OrderOk c)
    (hwin : ∀ p k, c.seq[p]? = some k → p < k + c.bufSize)
    (s : St α) (hr : Reach c false s) (k : Nat) (hw : s.waiting = some k) (hheld : s.held = []) :
    (∃ s', step c s .wake = .ok s') ∨
    ∃ b, s.pref k = some b ∧ ((∃ s', step c s (.copy b) = .ok s') ∨ ∃ s', step c s (.signal b) = .ok s') := by
  have hi := reach_inv h.good hr
  have hk : k = s.returned.length ∧ s.nextconsume = s.returned.length + 1 := by
    rcases hi.wait with h | h
    · rw [hw] at h; simp at h
    · rw [hw] at h; simp only [Option.some.injEq] at h; exact h
  have hkL : k < c.seqLength := by have := hi.nc; omega
  have hmem : k ∈ c.seq := h.1.mem_iff.2 (List.mem_range.2 hkL)
  obtain ⟨p, hp, hpk⟩ := List.getElem_of_mem hmem
  have hp' : c.seq[p]? = some k := by rw [List.getElem?_eq_getElem hp, hpk]
  have h1 := hwin p k hp'
  have hnr := hi.nrEq
  rw [hheld] at hnr
  simp only [List.length_nil, Nat.sub_zero, Cfg.nread] at hnr
  have hlt : p < s.nextread := by
    have := h.good.len
    omega
  have hsub : k ∈ s.submitted := by
    rw [hi.sub]
    refine List.mem_of_getElem? (i := p) ?_
    rw [List.getElem?_take_of_lt hlt]; exact hp'
  obtain ⟨b, hb, hpb, hact⟩ := hi.act k hsub
  rcases hact with ⟨hret, _⟩ | ⟨st, hreq⟩
  · rw [hi.ret, List.mem_range] at hret; omega
  · have hon := (hi.req b k st hreq).2.2.2.1
    cases st with
    | issued => right; exact ⟨b, hpb, .inl ⟨_, by simp only [step, hreq]; rfl⟩⟩
    | copied => right; exact ⟨b, hpb, .inr ⟨_, by simp only [step, hreq]; rfl⟩⟩
    | signalled =>
      left
      obtain ⟨b', _, _, _, _, h5, _⟩ := handOut_inv hi hw hon
      exact ⟨_, by simp only [step, hw, if_pos (show s.compl k = true from hon)]; exact h5⟩
    | ready =>
      left
      obtain ⟨b', _, _, _, _, h5, _⟩ := handOut_inv hi hw hon
      exact ⟨_, by simp only [step, hw, if_pos (show s.compl k = true from hon)]; exact h5⟩

/-- The computed schedule meets both requirements on the prefetch order. -/
theorem C15_schedule_ok (disks : List (Option Nat)) (m D : Nat) (hm : 0 < m) (hL : 0 < disks.length)
    (hD : Sched.DisksOk disks D) (busy0 : Nat → Bool) (choice : Nat → Nat) (out : List Nat)
    (h : Sched.computeSchedule disks m D busy0 choice = some out) (disk : Nat → α) :
    OrderOk { seqLength := disks.length, seq := out, bufSize := m, disk := disk } ∧
    ∀ p k, out[p]? = some k → p < k + m := by
  obtain ⟨out', h', hp⟩ := Sched.C13_permutation disks m D hm hD busy0 choice
  rw [h, Option.some.injEq] at h'
  subst h'
  exact ⟨⟨hp, hL, hm⟩, fun p k hk => Sched.C14_position disks m D hm hD busy0 choice out h p k hk⟩

/-- A run with two buffers in the order 1, 0, 2: block 0 is handed out with its data. -/
example : ∃ s, Reach { seqLength := 3, seq := [1, 0, 2], bufSize := 2, disk := fun k => k + 10 } false s ∧
    s.returned = [(0, 1)] ∧ s.bufs 1 = some 10 := by
  have h : Reach { seqLength := 3, seq := [1, 0, 2], bufSize := 2, disk := fun k => k + 10 } false _ :=
    Reach.next .wake (Reach.next (.signal 1) (Reach.next (.copy 1)
      (Reach.next .pull (Reach.start rfl) (by show 0 < 3; decide) (by simp) rfl)
      trivial (by simp) rfl) trivial (by simp) rfl) trivial (by simp) rfl
  exact ⟨_, h, rfl, rfl⟩

end Foxxll.Prefetch
