import Verif.Proofs.WriterFail
import Verif.Spec.WriterFail
import Verif.Proofs.AsyncSchedule
/-
Lemmas for `Verif.Props.WriterAlive`: the writer with failing writes does not block itself.
-/
namespace Foxxll.WriterFail

open BufWriter (Bid upd Inv places isDone)

variable {α : Type}

theorem raise_blocked (s : St α) (l : List (Nat × Nat)) : raise s l ≠ .blocked := by
  unfold raise; split <;> simp

theorem lift_some {s : St α} {o : Option (BufWriter.St α)} (h : ∃ w, o = some w) : lift s o ≠ .blocked := by
  obtain ⟨w, rfl⟩ := h; simp [lift]

theorem ret_some {s : St α} {o : Option (BufWriter.St α)} (h : ∃ w, o = some w) : ret s o ≠ .blocked := by
  obtain ⟨w, rfl⟩ := h; simp [ret]

theorem pending_of {n wbs : Nat} {s : St α} (hi : FInv n wbs s) {b : Nat} (hb : b ∈ s.w.busy) (hd : isDone s.w b = false) : ∃ bid, s.w.reqs b = some (bid, false) := by
  unfold isDone at hd
  cases hr : s.w.reqs b with
  | none => exact absurd hr (hi.base.br b hb)
  | some r =>
    obtain ⟨bid, d⟩ := r
    rw [hr] at hd
    simp only at hd
    subst hd
    exact ⟨bid, rfl⟩

theorem submit_alive {n wbs : Nat} {s : St α} (hi : FInv n wbs s) (hb : s.w.batch ≠ []) (hpc : (∃ b bid, s.w.pc = .writing b bid true) ∨ s.w.pc = .flushing) (c : Nat) :
    submit n wbs s c ≠ .blocked := by
  obtain ⟨⟨e, rest⟩, hpop⟩ := BufWriter.popMin_isSome (c := c) hb
  have he : s.w.batch.isEmpty = false := by simpa using hb
  unfold submit
  rw [hpop]
  simp only
  split
  · exact raise_blocked _ _
  · refine lift_some ?_
    obtain ⟨w, hw⟩ := BufWriter.submitOne_some hi.base hb c
    refine ⟨w, ?_⟩
    rcases hpc with ⟨b, bid, hpc⟩ | hpc <;> simp [BufWriter.work, hpc, he, hw]

theorem found_alive {n wbs : Nat} {s : St α} (hpc : s.w.pc = .getting) (hf : s.w.free = []) {k x : Nat} (hx : s.w.busy[k]? = some x) (hd : isDone s.w x = true) (l : List Nat) :
    found n wbs s k l ≠ .blocked := by
  unfold found
  rw [hx]
  simp only [hd, if_true]
  split
  · exact raise_blocked _ _
  · refine ret_some ?_
    simp only [BufWriter.work, hpc, BufWriter.pollStage, Option.bind_some, BufWriter.takeStage, hf, List.getLast?_nil, hx, hd, if_true]
    exact ⟨_, rfl⟩

theorem get_alive {n wbs : Nat} {s : St α} (hi : FInv n wbs s) (hpc : s.w.pc = .getting) (hlt : wbs + s.w.held.length < n)
    (hn : ∀ b bid, s.w.reqs b ≠ some (bid, false)) : get n wbs s 0 ≠ .blocked := by
  unfold get
  split
  · rename_i x hx
    split
    · rename_i hd
      split
      · exact raise_blocked _ _
      · refine ret_some ?_
        simp only [BufWriter.work, hpc, BufWriter.pollStage, hx, hd, if_true, Option.bind_some, BufWriter.takeStage, List.getLast?_append, List.getLast?_singleton, Option.some_or]
        exact ⟨_, rfl⟩
    · simp
  · split
    · rename_i hf
      refine ret_some ?_
      simp only [BufWriter.work, hpc, BufWriter.pollStage, Option.bind_some, BufWriter.takeStage, List.getLast?_eq_some_getLast hf]
      exact ⟨_, rfl⟩
    · rename_i hf
      have hf : s.w.free = [] := by simpa using hf
      split
      · split
        · rename_i k hk
          obtain ⟨h1, h2, _⟩ := List.findIdx?_eq_some_iff_getElem.1 hk
          exact found_alive hpc hf (List.getElem?_eq_getElem h1) h2 _
        · simp
      · have htot := hi.base.tot (by simp [hpc]) (by simp [hpc])
        have hcur : BufWriter.cur s.w = [] := by simp [BufWriter.cur, hpc]
        have hbl := hi.base.bl
        cases hb : s.w.busy with
        | nil =>
          unfold places at htot
          rw [hf, hb, hcur] at htot
          simp at htot
          omega
        | cons x rest =>
          have hx : s.w.busy[0]? = some x := by rw [hb]; rfl
          refine found_alive hpc hf hx ?_ _
          cases hd : isDone s.w x with
          | true => rfl
          | false =>
            obtain ⟨bid, hr⟩ := pending_of hi (by rw [hb]; simp) hd
            exact absurd hr (hn x bid)

theorem drain_alive {n wbs : Nat} {s : St α} (hi : FInv n wbs s) (hpc : s.w.pc = .draining) (hn : ∀ b bid, s.w.reqs b ≠ some (bid, false)) (c : Nat) :
    drain n wbs s c ≠ .blocked := by
  have hall : ∀ x ∈ s.w.busy, isDone s.w x = true := by
    intro x hx
    cases hd : isDone s.w x with
    | true => rfl
    | false =>
      obtain ⟨bid, hr⟩ := pending_of hi hx hd
      exact absurd hr (hn x bid)
  unfold drain
  split
  · refine lift_some ?_
    simp only [BufWriter.work, hpc, if_pos (List.all_eq_true.2 hall)]
    exact ⟨_, rfl⟩
  · rename_i x r hd
    rw [if_pos (hall x (dropWhile_head hd).1)]
    exact raise_blocked _ _

/-- Without requests in flight the client thread proceeds. -/
theorem work_alive {n wbs : Nat} {s : St α} (hi : FInv n wbs s) (hpc : s.w.pc ≠ .idle) (hlt : wbs + s.w.held.length < n)
    (hn : ∀ b bid, s.w.reqs b ≠ some (bid, false)) : work n wbs s 0 ≠ .blocked := by
  unfold work
  cases hp : s.w.pc with
  | idle => exact absurd hp hpc
  | writing b bid f =>
    cases f with
    | false =>
      refine lift_some ?_
      simp only [BufWriter.work, hp]
      split <;> exact ⟨_, rfl⟩
    | true =>
      simp only
      split
      · rename_i he
        refine lift_some ?_
        simp only [BufWriter.work, hp, he, if_true]
        exact ⟨_, rfl⟩
      · rename_i he
        exact submit_alive hi (by simpa using he) (.inl ⟨b, bid, hp⟩) 0
  | getting => exact get_alive hi hp hlt hn
  | flushing =>
    simp only
    split
    · rename_i he
      refine lift_some ?_
      simp only [BufWriter.work, hp, he, if_true]
      exact ⟨_, rfl⟩
    · rename_i he
      exact submit_alive hi (by simpa using he) (.inr hp) 0
  | draining => exact drain_alive hi hp hn 0

theorem lift_ub (s : St α) (o : Option (BufWriter.St α)) : lift s o ≠ .ub := by cases o <;> simp [lift]

theorem ret_ub (s : St α) (o : Option (BufWriter.St α)) : ret s o ≠ .ub := by cases o <;> simp [ret]

theorem raise_ub (s : St α) (l : List (Nat × Nat)) : raise s l ≠ .ub := by unfold raise; split <;> simp

/-- The client thread uses no switch that does not exist. -/
theorem work_ub (n wbs : Nat) (s : St α) (c : Nat) : work n wbs s c ≠ .ub := by
  have hf : ∀ k l, found n wbs s k l ≠ .ub := by
    intro k l
    unfold found
    split
    · simp
    · split
      · split
        · exact raise_ub _ _
        · exact ret_ub _ _
      · simp
  have hs : submit n wbs s c ≠ .ub := by
    unfold submit
    split
    · simp
    · split
      · exact raise_ub _ _
      · exact lift_ub _ _
  unfold work
  split
  · simp
  · exact lift_ub _ _
  · split
    · exact lift_ub _ _
    · exact hs
  · unfold get
    split
    · split
      · split
        · exact raise_ub _ _
        · exact ret_ub _ _
      · simp
    · split
      · exact ret_ub _ _
      · split
        · split
          · exact hf _ _
          · simp
        · exact hf _ _
  · split
    · exact lift_ub _ _
    · exact hs
  · unfold drain
    split
    · exact lift_ub _ _
    · split
      · exact raise_ub _ _
      · simp

/-! ### The number of steps -/

/-- Steps of the writer left, with those of the poll loop. -/
def left (n : Nat) (s : St α) : Nat := (n + 3) * BufWriter.msr s.w + (n + 2 - s.scan)

theorem left_less {n : Nat} {s s' : St α} (h : BufWriter.msr s'.w < BufWriter.msr s.w) : left n s' < left n s := by
  unfold left
  have : (n + 3) * (BufWriter.msr s'.w + 1) ≤ (n + 3) * BufWriter.msr s.w := Nat.mul_le_mul_left _ h
  rw [Nat.mul_add] at this
  omega

theorem busy_le {n wbs : Nat} {s : St α} (hi : FInv n wbs s) : s.w.busy.length ≤ n := by
  have h1 : s.w.busy.Nodup := by
    have := hi.base.nd
    unfold places at this
    exact (List.nodup_append.1 (List.nodup_append.1 (List.nodup_append.1 this).2.1).2.1).1
  exact Sched.nodup_length_le h1 (fun x hx => hi.base.lt x (by unfold places; simp [hx]))

theorem scan_le {n wbs : Nat} {s : St α} {c : Nat} (h : get n wbs s c = .ok { s with scan := s.scan + 1 }) : s.scan ≤ s.w.busy.length := by
  by_cases hle : s.scan ≤ s.w.busy.length
  · exact hle
  · have hg : ∀ {o : Option (BufWriter.St α)}, ret s o ≠ .ok { s with scan := s.scan + 1 } := by
      intro o hc
      cases o with
      | none => cases hc
      | some w =>
        have := congrArg St.gets (Res.ok.inj hc)
        simp at this
    unfold get at h
    rw [List.getElem?_eq_none (by omega)] at h
    simp only at h
    split at h
    · exact absurd h hg
    · rw [if_neg (by omega)] at h
      unfold found at h
      split at h
      · cases h
      · split at h
        · split at h
          · exact (raise_ok h).elim
          · exact absurd h hg
        · cases h

theorem work_left {n wbs : Nat} {s s' : St α} (hi : FInv n wbs s) {c : Nat} (h : work n wbs s c = .ok s') : left n s' < left n s := by
  have hlift : ∀ {p k}, lift s (BufWriter.work n wbs s.w p k) = .ok s' → left n s' < left n s := by
    intro p k h
    obtain ⟨w, h1, rfl⟩ := lift_ok h
    exact left_less (BufWriter.work_msr h1)
  have hsub : submit n wbs s c = .ok s' → left n s' < left n s := by
    intro h
    rcases submit_ok (wbs := wbs) hi (c := c) with h1 | h1
    · rw [h1] at h; cases h
    · rw [h1] at h; exact hlift h
  unfold work at h
  split at h
  · cases h
  · exact hlift h
  · split at h
    · exact hlift h
    · exact hsub h
  · rename_i hpc
    rcases get_ok hpc h with h1 | ⟨w', p, k, h1, h2, _⟩
    · have h2 := scan_le (h1 ▸ h)
      have h3 := busy_le hi
      rw [h1]
      unfold left
      show (n + 3) * BufWriter.msr s.w + (n + 2 - (s.scan + 1)) < _
      omega
    · rw [h2]
      exact left_less (BufWriter.work_msr h1)
  · split at h
    · exact hlift h
    · exact hsub h
  · unfold drain at h
    split at h
    · exact hlift h
    · split at h
      · exact (raise_ok h).elim
      · cases h

theorem base_held {n wbs : Nat} {w w' : BufWriter.St α} {p : Option Nat} {c : Nat} (h : BufWriter.work n wbs w p c = some w') : w'.held = w.held ∨ w'.pc = .idle := by
  unfold BufWriter.work at h
  split at h
  · cases h
  · split at h <;> cases h <;> exact .inl rfl
  · split at h
    · cases h; exact .inl rfl
    · obtain ⟨e, rest, _, rfl⟩ := submitOne_facts h; exact .inl rfl
  · obtain ⟨w1, _, h2⟩ := Option.bind_eq_some_iff.1 h
    unfold BufWriter.takeStage at h2
    split at h2
    · cases h2; exact .inr rfl
    · split at h2
      · cases h2
      · split at h2
        · cases h2; exact .inr rfl
        · cases h2
  · split at h
    · cases h; exact .inl rfl
    · obtain ⟨e, rest, _, rfl⟩ := submitOne_facts h; exact .inl rfl
  · split at h
    · cases h; exact .inr rfl
    · cases h

/-- The client gets buffers only when a method returns. -/
theorem work_held {n wbs : Nat} {s s' : St α} (hi : FInv n wbs s) {c : Nat} (h : work n wbs s c = .ok s') : s'.w.held = s.w.held ∨ s'.w.pc = .idle := by
  have hlift : ∀ {p k}, lift s (BufWriter.work n wbs s.w p k) = .ok s' → s'.w.held = s.w.held ∨ s'.w.pc = .idle := by
    intro p k h
    obtain ⟨w, h1, rfl⟩ := lift_ok h
    exact base_held h1
  have hsub : submit n wbs s c = .ok s' → s'.w.held = s.w.held ∨ s'.w.pc = .idle := by
    intro h
    rcases submit_ok (wbs := wbs) hi (c := c) with h1 | h1
    · rw [h1] at h; cases h
    · rw [h1] at h; exact hlift h
  unfold work at h
  split at h
  · cases h
  · exact hlift h
  · split at h
    · exact hlift h
    · exact hsub h
  · rename_i hpc
    rcases get_ok hpc h with h1 | ⟨w', p, k, h1, h2, h3⟩
    · rw [h1]; exact .inl rfl
    · rw [h2]; exact .inr h3.2.2.1
  · split at h
    · exact hlift h
    · exact hsub h
  · unfold drain at h
    split at h
    · exact hlift h
    · split at h
      · exact (raise_ok h).elim
      · cases h

end Foxxll.WriterFail
