/-
Invariant of the writer with failing writes.
-/
import Verif.Model.WriterFail
import Verif.Proofs.BufWriter

set_option linter.unusedSimpArgs false

namespace Foxxll.WriterFail

open BufWriter (Bid upd Inv places isDone)

variable {α : Type}

structure FInv (n wbs : Nat) (s : St α) : Prop where
  base : Inv n wbs s.w
  bad : ∀ b, s.err b = true → b ∈ s.w.busy ∧ isDone s.w b = true
  fails : s.failed = [] ↔ ∀ b, s.err b = false
  log : s.w.transferred.Perm (s.stored ++ s.failed)
  kept : s.w.pc = .flushing ∨ s.w.pc = .draining →
    (s.kept ++ places s.w).Nodup ∧ (∀ x ∈ s.kept, x < n) ∧ (s.kept ++ places s.w).length = n
  exc : 0 < s.thrown → s.failed ≠ []
  stl : s.thrown = 0 → s.stale = []
  reach : s.thrown = 0 → BufWriter.Reach n wbs false BufWriter.Legal s.w

theorem init_inv (n wbs : Nat) (bufs : Nat → α) (bids : Nat → Bid) : FInv n wbs (init n bufs bids) := by
  refine ⟨BufWriter.init_inv n wbs bufs bids, ?_, ?_, ?_, ?_, ?_, fun _ => rfl, fun _ => .start bufs bids⟩
  · intro b h; cases h
  · exact ⟨fun _ _ => rfl, fun _ => rfl⟩
  · exact List.Perm.refl _
  · rintro (h | h) <;> cases h
  · intro h; cases h

theorem bad_batch {n wbs : Nat} {s : St α} (hi : FInv n wbs s) {b : Nat} (hb : s.err b = true) : b ∉ s.w.batch.map (·.2) := by
  intro h
  have hnd := hi.base.nd
  unfold places at hnd
  have h1 := (List.nodup_append.1 (List.nodup_append.1 hnd).2.1).2.1
  exact (List.nodup_append.1 h1).2.2 b (hi.bad b hb).1 b (by simp [h]) rfl

theorem bad_else {n wbs : Nat} {s : St α} (hi : FInv n wbs s) {b : Nat} (hb : s.err b = true) : b ∉ s.w.held ∧ b ∉ s.w.free := by
  have hnd := hi.base.nd
  unfold places at hnd
  have hm := (hi.bad b hb).1
  exact ⟨fun h => (List.nodup_append.1 hnd).2.2 b h b (by simp [hm]) rfl,
    fun h => (List.nodup_append.1 (List.nodup_append.1 hnd).2.1).2.2 b h b (by simp [hm]) rfl⟩

/-- A step of the writer in which no request throws. -/
theorem lift_inv {n wbs : Nat} (hw : 0 < wbs) {s : St α} (hi : FInv n wbs s) {op : BufWriter.Op α} (hl : BufWriter.Legal s.w op)
    {w' : BufWriter.St α} (hs : BufWriter.step n wbs false s.w op = some w')
    (hb : ∀ b, s.err b = true → b ∈ w'.busy ∧ isDone w' b = true) (ht : w'.transferred = s.w.transferred)
    (sc g : Nat) (k : List Nat) (cl : Bool)
    (hk : w'.pc = .flushing ∨ w'.pc = .draining → (k ++ places w').Nodup ∧ (∀ x ∈ k, x < n) ∧ (k ++ places w').length = n) :
    FInv n wbs { s with w := w', scan := sc, gets := g, kept := k, closing := cl } :=
  ⟨BufWriter.step_inv hw hi.base hl hs, hb, hi.fails, (by show w'.transferred.Perm _; rw [ht]; exact hi.log), hk, hi.exc, hi.stl,
    fun h => .next op (hi.reach h) hl hs⟩

theorem submitOne_facts {s w' : BufWriter.St α} {c : Nat} (h : BufWriter.submitOne s c = some w') :
    ∃ e rest, BufWriter.popMin c s.batch = some (e, rest) ∧ w' = { s with batch := rest, reqs := upd s.reqs e.2 (some (s.bids e.2, false)), busy := s.busy ++ [e.2] } := by
  unfold BufWriter.submitOne at h
  split at h
  · cases h
  · rename_i e rest hp
    split at h
    · cases h
    · exact ⟨e, rest, hp, (Option.some.inj h).symm⟩

theorem submit_places {s w' : BufWriter.St α} {c : Nat} (h : BufWriter.submitOne s c = some w') : (places w').Perm (places s) := by
  obtain ⟨e, rest, hp, rfl⟩ := submitOne_facts h
  have hperm := (BufWriter.popMin_spec hp).1
  unfold places
  refine List.Perm.append_left _ (List.Perm.append_left _ ?_)
  show ((s.busy ++ [e.2]) ++ (rest.map (·.2) ++ BufWriter.cur s)).Perm (s.busy ++ (s.batch.map (·.2) ++ BufWriter.cur s))
  rw [List.append_assoc]
  refine List.Perm.append_left _ ?_
  have := (hperm.map (·.2)).append_right (BufWriter.cur s)
  exact this.symm

theorem kept_perm {n : Nat} {k l l' : List Nat} (hp : l'.Perm l) (h : (k ++ l).Nodup ∧ (∀ x ∈ k, x < n) ∧ (k ++ l).length = n) :
    (k ++ l').Nodup ∧ (∀ x ∈ k, x < n) ∧ (k ++ l').length = n := by
  have := List.Perm.append_left k hp
  exact ⟨this.nodup_iff.2 h.1, h.2.1, this.length_eq.trans h.2.2⟩

theorem submit_inv {n wbs : Nat} (hw : 0 < wbs) {s : St α} (hi : FInv n wbs s) {c : Nat} {w' : BufWriter.St α}
    (hs : BufWriter.step n wbs false s.w (.work none c) = some w') (h1 : BufWriter.submitOne s.w c = some w') : FInv n wbs { s with w := w' } := by
  have hpl := submit_places h1
  obtain ⟨e, rest, hp, he⟩ := submitOne_facts h1
  have hmem : e.2 ∈ s.w.batch.map (·.2) := List.mem_map.2 ⟨e, ((BufWriter.popMin_spec hp).1.mem_iff).2 (by simp), rfl⟩
  refine lift_inv hw hi (op := .work none c) trivial hs ?_ (by rw [he]) s.scan s.gets s.kept s.closing ?_
  · intro b hb
    have h2 : b ≠ e.2 := fun h => bad_batch hi hb (h ▸ hmem)
    obtain ⟨h3, h4⟩ := hi.bad b hb
    rw [he]
    refine ⟨by simp [h3], ?_⟩
    unfold isDone at h4 ⊢
    simp only
    rw [BufWriter.upd_ne _ _ h2]
    exact h4
  · intro hpc
    exact kept_perm hpl (hi.kept (by rw [he] at hpc; exact hpc))

theorem raise_threw {s s' : St α} {bt : List (Nat × Nat)} (h : raise s bt = .threw s') : s.closing = false ∧
    s' = { s with w := { s.w with batch := bt, pc := .idle, held := back s }, scan := 0, thrown := s.thrown + 1 } := by
  unfold raise at h
  split at h
  · cases h
  · rename_i hc
    injection h with h
    exact ⟨by simpa using hc, h.symm⟩

/-- After an exception of `get_free_block`. -/
theorem get_threw_inv {n wbs : Nat} {s : St α} (hi : FInv n wbs s) (hpc : s.w.pc = .getting) (l : List Nat) {x : Nat} (hx : s.err x = true) :
    FInv n wbs { s with stale := l, w := { s.w with pc := .idle }, scan := 0, thrown := s.thrown + 1 } := by
  have hp : places ({ s.w with pc := .idle } : BufWriter.St α) = places s.w := by simp [places, BufWriter.cur, hpc]
  have hf : s.failed ≠ [] := fun h => by have := (hi.fails.1 h) x; rw [hx] at this; cases this
  refine ⟨⟨?_, ?_, hi.base.pend, ?_, ?_, ?_, ?_, hi.base.bl, hi.base.br⟩, hi.bad, hi.fails, hi.log, ?_, fun _ => hf, ?_, ?_⟩
  · rw [hp]; exact hi.base.nd
  · rw [hp]; exact hi.base.lt
  · have := hi.base.log
    have e : BufWriter.curW s.w = [] := by simp [BufWriter.curW, hpc]
    rw [e] at this
    exact this
  · intro _ _; rw [hp]; exact hi.base.tot (by simp [hpc]) (by simp [hpc])
  · rintro (h | h) <;> cases h
  · intro h; cases h
  · rintro (h | h) <;> cases h
  · intro h; exact absurd h (Nat.succ_ne_zero _)
  · intro h; exact absurd h (Nat.succ_ne_zero _)

/-- After an exception of `flush`. -/
theorem drain_threw_inv {n wbs : Nat} {s : St α} (hi : FInv n wbs s) (hpc : s.w.pc = .draining) {x : Nat} (hx : s.err x = true) :
    FInv n wbs { s with w := { s.w with pc := .idle, held := s.kept }, scan := 0, thrown := s.thrown + 1 } := by
  have hh : s.w.held = [] := hi.base.fl (Or.inr hpc)
  have hp : places ({ s.w with pc := .idle, held := s.kept } : BufWriter.St α) = s.kept ++ places s.w := by
    simp [places, BufWriter.cur, hpc, hh]
  have hf : s.failed ≠ [] := fun h => by have := (hi.fails.1 h) x; rw [hx] at this; cases this
  obtain ⟨k1, k2, k3⟩ := hi.kept (Or.inr hpc)
  refine ⟨⟨?_, ?_, hi.base.pend, ?_, ?_, ?_, ?_, hi.base.bl, hi.base.br⟩, hi.bad, hi.fails, hi.log, ?_, fun _ => hf, ?_, ?_⟩
  · rw [hp]; exact k1
  · rw [hp]
    intro y hy
    rcases List.mem_append.1 hy with h | h
    · exact k2 y h
    · exact hi.base.lt y h
  · have := hi.base.log
    have e : BufWriter.curW s.w = [] := by simp [BufWriter.curW, hpc]
    rw [e] at this
    exact this
  · intro _ _; rw [hp]; exact k3
  · rintro (h | h) <;> cases h
  · intro h; cases h
  · rintro (h | h) <;> cases h
  · intro h; exact absurd h (Nat.succ_ne_zero _)
  · intro h; exact absurd h (Nat.succ_ne_zero _)

theorem lift_ok {s s' : St α} {o : Option (BufWriter.St α)} (h : lift s o = .ok s') : ∃ w, o = some w ∧ s' = { s with w := w } := by
  cases o with
  | none => cases h
  | some w => injection h with h; exact ⟨w, rfl, h.symm⟩

theorem ret_ok {s s' : St α} {o : Option (BufWriter.St α)} (h : ret s o = .ok s') :
    ∃ w, o = some w ∧ s' = { s with w := w, scan := 0, gets := s.gets + 1 } := by
  cases o with
  | none => cases h
  | some w => injection h with h; exact ⟨w, rfl, h.symm⟩

theorem lift_threw {s s' : St α} {o : Option (BufWriter.St α)} (h : lift s o = .threw s') : False := by cases o <;> cases h
theorem ret_threw {s s' : St α} {o : Option (BufWriter.St α)} (h : ret s o = .threw s') : False := by cases o <;> cases h

theorem raise_ok {s s' : St α} {bt : List (Nat × Nat)} (h : raise s bt = .ok s') : False := by
  unfold raise at h; split at h <;> cases h

/-- The poll loop found buffer number `i`, not failed. -/
theorem poll_step {n wbs : Nat} {s : St α} {i x c : Nat} (hpc : s.w.pc = .getting) (hx : s.w.busy[i]? = some x) (hd : isDone s.w x = true)
    {w' : BufWriter.St α} (h : BufWriter.work n wbs s.w (some i) c = some w') :
    w'.busy = s.w.busy.eraseIdx i ∧ w'.reqs = s.w.reqs ∧ w'.transferred = s.w.transferred ∧ w'.pc = .idle ∧ w'.held = s.w.held ++ [x] := by
  simp only [BufWriter.work, hpc, BufWriter.pollStage, hx, hd, if_true, Option.bind_some, BufWriter.takeStage,
    List.getLast?_append, List.getLast?_singleton, Option.some_or, Option.some.injEq] at h
  subst h
  exact ⟨rfl, rfl, rfl, rfl, rfl⟩

/-- A free block is taken. -/
theorem free_step {n wbs : Nat} {s : St α} {c : Nat} (hpc : s.w.pc = .getting) (hf : s.w.free ≠ [])
    {w' : BufWriter.St α} (h : BufWriter.work n wbs s.w none c = some w') :
    w'.busy = s.w.busy ∧ w'.reqs = s.w.reqs ∧ w'.transferred = s.w.transferred ∧ w'.pc = .idle ∧ ∃ x ∈ s.w.free, w'.held = s.w.held ++ [x] := by
  simp only [BufWriter.work, hpc, BufWriter.pollStage, Option.bind_some, BufWriter.takeStage, List.getLast?_eq_some_getLast hf, Option.some.injEq] at h
  subst h
  exact ⟨rfl, rfl, rfl, rfl, _, List.getLast_mem hf, rfl⟩

/-- `wait_any` found buffer number `k`, not failed. -/
theorem any_step {n wbs : Nat} {s : St α} {k x : Nat} (hpc : s.w.pc = .getting) (hf : s.w.free = []) (hx : s.w.busy[k]? = some x)
    (hd : isDone s.w x = true) {w' : BufWriter.St α} (h : BufWriter.work n wbs s.w none k = some w') :
    w'.busy = s.w.busy.eraseIdx k ∧ w'.reqs = s.w.reqs ∧ w'.transferred = s.w.transferred ∧ w'.pc = .idle ∧ w'.held = s.w.held ++ [x] := by
  simp only [BufWriter.work, hpc, BufWriter.pollStage, Option.bind_some, BufWriter.takeStage, hf, List.getLast?_nil, hx, hd, if_true, Option.some.injEq] at h
  subst h
  exact ⟨rfl, rfl, rfl, rfl, rfl⟩

theorem mem_eraseIdx' {l : List Nat} {i x b : Nat} (hx : l[i]? = some x) (hb : b ∈ l) (hne : b ≠ x) : b ∈ l.eraseIdx i := by
  have := (BufWriter.perm_eraseIdx hx).mem_iff.1 hb
  rcases List.mem_cons.1 this with h | h
  · exact absurd h hne
  · exact h

theorem isDone_congr {s s' : BufWriter.St α} (h : s'.reqs = s.reqs) (b : Nat) : isDone s' b = isDone s b := by
  unfold isDone; rw [h]

theorem get_ok {n wbs : Nat} {s s' : St α} (hpc : s.w.pc = .getting) {c : Nat} (h : get n wbs s c = .ok s') :
    s' = { s with scan := s.scan + 1 } ∨
    ∃ w' p k, BufWriter.step n wbs false s.w (.work p k) = some w' ∧ s' = { s with w := w', scan := 0, gets := s.gets + 1 } ∧
      w'.reqs = s.w.reqs ∧ w'.transferred = s.w.transferred ∧ w'.pc = .idle ∧
      ((w'.busy = s.w.busy ∧ s.w.busy.length ≤ s.scan ∧ ∃ x ∈ s.w.free, w'.held = s.w.held ++ [x]) ∨
        ∃ i x, s.w.busy[i]? = some x ∧ isDone s.w x = true ∧ s.err x = false ∧ w'.busy = s.w.busy.eraseIdx i ∧ w'.held = s.w.held ++ [x] ∧
          (i = s.scan ∨ s.w.busy.length ≤ s.scan)) := by
  have hfound : ∀ k left, s.w.free = [] → s.w.busy.length ≤ s.scan → found n wbs s k left = .ok s' →
      ∃ w' p k, BufWriter.step n wbs false s.w (.work p k) = some w' ∧ s' = { s with w := w', scan := 0, gets := s.gets + 1 } ∧
      w'.reqs = s.w.reqs ∧ w'.transferred = s.w.transferred ∧ w'.pc = .idle ∧
      ((w'.busy = s.w.busy ∧ s.w.busy.length ≤ s.scan ∧ ∃ x ∈ s.w.free, w'.held = s.w.held ++ [x]) ∨
        ∃ i x, s.w.busy[i]? = some x ∧ isDone s.w x = true ∧ s.err x = false ∧ w'.busy = s.w.busy.eraseIdx i ∧ w'.held = s.w.held ++ [x] ∧
          (i = s.scan ∨ s.w.busy.length ≤ s.scan)) := by
    intro k left hf hle h
    unfold found at h
    split at h
    · cases h
    · rename_i x hx
      split at h
      · rename_i hd
        split at h
        · exact (raise_ok h).elim
        · rename_i he
          obtain ⟨w', h1, h2⟩ := ret_ok h
          obtain ⟨a1, a2, a3, a4, a5⟩ := any_step hpc hf hx hd h1
          exact ⟨w', none, k, h1, h2, a2, a3, a4, Or.inr ⟨k, x, hx, hd, by simpa using he, a1, a5, Or.inr hle⟩⟩
      · cases h
  unfold get at h
  split at h
  · rename_i x hx
    split at h
    · rename_i hd
      split at h
      · exact (raise_ok h).elim
      · rename_i he
        obtain ⟨w', h1, h2⟩ := ret_ok h
        obtain ⟨a1, a2, a3, a4, a5⟩ := poll_step hpc hx hd h1
        exact Or.inr ⟨w', some s.scan, c, h1, h2, a2, a3, a4, Or.inr ⟨s.scan, x, hx, hd, by simpa using he, a1, a5, Or.inl rfl⟩⟩
    · injection h with h; exact Or.inl h.symm
  · rename_i hx
    have hle : s.w.busy.length ≤ s.scan := List.getElem?_eq_none_iff.1 hx
    split at h
    · rename_i hf
      obtain ⟨w', h1, h2⟩ := ret_ok h
      obtain ⟨a1, a2, a3, a4, a5⟩ := free_step hpc hf h1
      exact Or.inr ⟨w', none, c, h1, h2, a2, a3, a4, Or.inl ⟨a1, hle, a5⟩⟩
    · rename_i hf
      have hf : s.w.free = [] := by simpa using hf
      split at h
      · split at h
        · exact Or.inr (hfound _ _ hf hle h)
        · injection h with h; exact Or.inl h.symm
      · exact Or.inr (hfound _ _ hf hle h)

theorem get_threw {n wbs : Nat} {s s' : St α} (hpc : s.w.pc = .getting) {c : Nat} (h : get n wbs s c = .threw s') :
    ∃ x l, s.err x = true ∧ isDone s.w x = true ∧ s.closing = false ∧
      s' = { s with stale := s.stale ++ l, w := { s.w with pc := .idle }, scan := 0, thrown := s.thrown + 1 } := by
  have hb : ∀ l, back { s with stale := l } = s.w.held := by intro l; simp [back, hpc]
  have hfound : ∀ k left, found n wbs s k left = .threw s' → ∃ x l, s.err x = true ∧ isDone s.w x = true ∧ s.closing = false ∧
      s' = { s with stale := s.stale ++ l, w := { s.w with pc := .idle }, scan := 0, thrown := s.thrown + 1 } := by
    intro k left h
    unfold found at h
    split at h
    · cases h
    · rename_i x hx
      split at h
      · rename_i hd
        split at h
        · rename_i he
          obtain ⟨h1, h2⟩ := raise_threw h
          rw [hb] at h2
          exact ⟨x, left, he, hd, h1, h2⟩
        · exact (ret_threw h).elim
      · cases h
  unfold get at h
  split at h
  · rename_i x hx
    split at h
    · rename_i hd
      split at h
      · rename_i he
        obtain ⟨h1, h2⟩ := raise_threw h
        rw [show back s = s.w.held from hb s.stale] at h2
        exact ⟨x, [], he, hd, h1, by rw [h2, List.append_nil]⟩
      · exact (ret_threw h).elim
    · cases h
  · split at h
    · exact (ret_threw h).elim
    · split at h
      · split at h
        · exact hfound _ _ h
        · cases h
      · exact hfound _ _ h

theorem dropWhile_all {p : Nat → Bool} : ∀ {l : List Nat}, l.dropWhile p = [] → ∀ x ∈ l, p x = true
  | [], _, x, hx => by cases hx
  | a :: l, h, x, hx => by
    simp only [List.dropWhile_cons] at h
    split at h
    · rename_i ha
      rcases List.mem_cons.1 hx with rfl | hx
      · exact ha
      · exact dropWhile_all h x hx
    · cases h

theorem dropWhile_head {p : Nat → Bool} : ∀ {l : List Nat} {x r}, l.dropWhile p = x :: r → x ∈ l ∧ p x = false
  | [], _, _, h => by cases h
  | a :: l, x, r, h => by
    simp only [List.dropWhile_cons] at h
    split at h
    · obtain ⟨h1, h2⟩ := dropWhile_head h
      exact ⟨by simp [h1], h2⟩
    · rename_i ha
      injection h with h1 h2
      subst h1
      exact ⟨by simp, by simpa using ha⟩

/-- A drain that returns: nothing failed. -/
theorem drain_ok {n wbs : Nat} {s s' : St α} (hi : ∀ b, s.err b = true → b ∈ s.w.busy ∧ isDone s.w b = true) {c : Nat} (h : drain n wbs s c = .ok s') :
    (∀ b, s.err b = false) ∧ ∃ w', BufWriter.work n wbs s.w none c = some w' ∧ s' = { s with w := w' } := by
  unfold drain at h
  split at h
  · rename_i hd
    refine ⟨fun b => ?_, lift_ok h⟩
    cases he : s.err b with
    | false => rfl
    | true =>
      have := dropWhile_all hd b (hi b he).1
      simp [he] at this
  · split at h
    · exact (raise_ok h).elim
    · cases h

theorem drain_threw {n wbs : Nat} {s s' : St α} (hpc : s.w.pc = .draining) {c : Nat} (h : drain n wbs s c = .threw s') :
    ∃ x, s.err x = true ∧ s.closing = false ∧ s' = { s with w := { s.w with pc := .idle, held := s.kept }, scan := 0, thrown := s.thrown + 1 } := by
  unfold drain at h
  split at h
  · exact (lift_threw h).elim
  · rename_i x r hd
    have hx := dropWhile_head hd
    split at h
    · rename_i hdn
      obtain ⟨h1, h2⟩ := raise_threw h
      have : back s = s.kept := by simp [back, hpc]
      rw [this] at h2
      refine ⟨x, ?_, h1, h2⟩
      have := hx.2
      rw [hdn] at this
      simpa using this
    · cases h

/-- The batch loop does not throw. -/
theorem submit_ok {n wbs : Nat} {s : St α} (hi : FInv n wbs s) {c : Nat} : submit n wbs s c = .blocked ∨ submit n wbs s c = lift s (BufWriter.work n wbs s.w none c) := by
  unfold submit
  split
  · exact Or.inl rfl
  · rename_i e rest hp
    split
    · rename_i hb
      have he : s.err e.2 = true := by simp at hb; exact hb.2
      exact absurd (List.mem_map.2 ⟨e, ((BufWriter.popMin_spec hp).1.mem_iff).2 (by simp), rfl⟩) (bad_batch hi he)
    · exact Or.inr rfl

theorem work_ok_inv {n wbs : Nat} (hw : 0 < wbs) {s s' : St α} (hi : FInv n wbs s) {c : Nat} (h : work n wbs s c = .ok s') : FInv n wbs s' := by
  have hsub : s.w.batch.isEmpty = false → (∃ b bid, s.w.pc = .writing b bid true) ∨ s.w.pc = .flushing → submit n wbs s c = .ok s' → FInv n wbs s' := by
    intro hne hpc h
    rcases submit_ok hi (c := c) with h1 | h1
    · rw [h1] at h; cases h
    · rw [h1] at h
      obtain ⟨w', h2, rfl⟩ := lift_ok h
      refine submit_inv hw hi h2 ?_
      rcases hpc with ⟨b, bid, hpc⟩ | hpc <;> simpa [BufWriter.work, hpc, hne] using h2
  have hlift : ∀ w', BufWriter.work n wbs s.w none c = some w' → w'.busy = s.w.busy → w'.reqs = s.w.reqs → w'.transferred = s.w.transferred →
      (w'.pc = .flushing ∨ w'.pc = .draining → (s.kept ++ places w').Nodup ∧ (∀ x ∈ s.kept, x < n) ∧ (s.kept ++ places w').length = n) →
      FInv n wbs { s with w := w' } := by
    intro w' h1 h2 h3 h4 h5
    refine lift_inv hw hi (op := .work none c) trivial h1 (fun b hb => ?_) h4 s.scan s.gets s.kept s.closing h5
    rw [h2, isDone_congr h3]
    exact hi.bad b hb
  unfold work at h
  split at h
  · cases h
  · rename_i b bid hpc
    obtain ⟨w', h1, rfl⟩ := lift_ok h
    have h2 := h1
    simp only [BufWriter.work, hpc] at h2
    split at h2 <;> injection h2 with h2 <;> subst h2
    · exact hlift _ h1 rfl rfl rfl (by rintro (h | h) <;> cases h)
    · exact hlift _ h1 rfl rfl rfl (by rintro (h | h) <;> cases h)
  · rename_i b bid hpc
    split at h
    · rename_i hb
      obtain ⟨w', h1, rfl⟩ := lift_ok h
      have h2 := h1
      simp only [BufWriter.work, hpc, hb, if_true] at h2
      injection h2 with h2
      subst h2
      exact hlift _ h1 rfl rfl rfl (by rintro (h | h) <;> cases h)
    · rename_i hb
      exact hsub (by simpa using hb) (Or.inl ⟨b, bid, hpc⟩) h
  · rename_i hpc
    rcases get_ok hpc h with rfl | ⟨w', p, k, h1, rfl, h3, h4, h5, h6⟩
    · exact ⟨hi.base, hi.bad, hi.fails, hi.log, hi.kept, hi.exc, hi.stl, hi.reach⟩
    · refine lift_inv hw hi (op := .work p k) trivial h1 (fun b hb => ?_) h4 0 (s.gets + 1) s.kept s.closing ?_
      · rw [isDone_congr h3]
        refine ⟨?_, (hi.bad b hb).2⟩
        rcases h6 with ⟨h6, _⟩ | ⟨i, x, hx, hd, he, h6, _⟩
        · rw [h6]; exact (hi.bad b hb).1
        · rw [h6]
          exact mem_eraseIdx' hx (hi.bad b hb).1 (fun hbx => by rw [hbx, he] at hb; cases hb)
      · rw [h5]; rintro (h | h) <;> cases h
  · rename_i hpc
    split at h
    · rename_i hb
      obtain ⟨w', h1, rfl⟩ := lift_ok h
      have h2 := h1
      simp only [BufWriter.work, hpc, hb, if_true] at h2
      injection h2 with h2
      subst h2
      refine hlift _ h1 rfl rfl rfl (fun _ => ?_)
      have := hi.kept (Or.inl hpc)
      have hp : places ({ s.w with pc := .draining } : BufWriter.St α) = places s.w := by simp [places, BufWriter.cur, hpc]
      rw [hp]
      exact this
    · rename_i hb
      exact hsub (by simpa using hb) (Or.inr hpc) h
  · rename_i hpc
    obtain ⟨h1, w', h2, rfl⟩ := drain_ok hi.bad h
    have h3 := h2
    simp only [BufWriter.work, hpc] at h3
    split at h3
    · injection h3 with h3
      refine lift_inv hw hi (op := .work none c) trivial h2 (fun b hb => ?_) (by rw [← h3]) s.scan s.gets s.kept s.closing ?_
      · rw [h1 b] at hb; cases hb
      · rw [← h3]; rintro (h | h) <;> cases h
    · cases h3

theorem work_threw {n wbs : Nat} {s s' : St α} (hi : FInv n wbs s) {c : Nat} (h : work n wbs s c = .threw s') :
    (s.w.pc = .getting ∧ get n wbs s c = .threw s') ∨ (s.w.pc = .draining ∧ drain n wbs s c = .threw s') := by
  unfold work at h
  split at h
  · cases h
  · exact (lift_threw h).elim
  · split at h
    · exact (lift_threw h).elim
    · rcases submit_ok hi (c := c) with h1 | h1 <;> rw [h1] at h
      · cases h
      · exact (lift_threw h).elim
  · rename_i hpc; exact Or.inl ⟨hpc, h⟩
  · split at h
    · exact (lift_threw h).elim
    · rcases submit_ok hi (c := c) with h1 | h1 <;> rw [h1] at h
      · cases h
      · exact (lift_threw h).elim
  · rename_i hpc; exact Or.inr ⟨hpc, h⟩

theorem call_ok {s s' : St α} {o : Option (BufWriter.St α)} (h : call s o = .ok s') : s.closing = false ∧ ∃ w, o = some w ∧ s' = { s with w := w } := by
  unfold call at h
  split at h
  · cases h
  · rename_i hc; exact ⟨by simpa using hc, lift_ok h⟩

theorem call_threw {s s' : St α} {o : Option (BufWriter.St α)} (h : call s o = .threw s') : False := by
  unfold call at h
  split at h
  · cases h
  · exact lift_threw h

theorem step_threw {n wbs : Nat} {s s' : St α} {op : Op α} (h : step n wbs s op = .threw s') : ∃ c, op = .work c ∧ work n wbs s c = .threw s' := by
  cases op with
  | fill b v => exact (call_threw h).elim
  | callGet => exact (call_threw h).elim
  | callWrite b bid => exact (call_threw h).elim
  | callFlush => exact (call_threw h).elim
  | callClose =>
    simp only [step] at h
    split at h
    · cases h
    · exact (lift_threw h).elim
  | work c => exact ⟨c, rfl, h⟩
  | done b =>
    simp only [step] at h
    split at h
    · split at h
      · cases h
      · exact (lift_threw h).elim
    · cases h
  | fail b =>
    simp only [step] at h
    split at h
    · split at h
      · cases h
      · exact (lift_threw h).elim
    · cases h

theorem flush_kept {n wbs : Nat} {s : St α} (hi : FInv n wbs s) {w' : BufWriter.St α} (h : BufWriter.step n wbs false s.w .callFlush = some w') :
    w' = { s.w with pc := .flushing, held := [] } ∧ (s.w.held ++ places w').Nodup ∧ (∀ x ∈ s.w.held, x < n) ∧ (s.w.held ++ places w').length = n := by
  simp only [BufWriter.step] at h
  split at h
  · rename_i hpc
    injection h with h
    have hp : s.w.held ++ places w' = places s.w := by rw [← h]; simp [places, BufWriter.cur, hpc]
    rw [hp]
    exact ⟨by rw [← h]; rfl, hi.base.nd, fun x hx => hi.base.lt x (by unfold places; simp [hx]), hi.base.tot (by simp [hpc]) (by simp [hpc])⟩
  · cases h

/-- What the completion of a request does to the writer. -/
theorem done_facts {n wbs : Nat} {w w' : BufWriter.St α} {b : Nat} {bid : Bid} (hr : w.reqs b = some (bid, false))
    (h : BufWriter.step n wbs false w (.done b) = some w') :
    w' = { w with reqs := upd w.reqs b (some (bid, true)), transferred := w.transferred ++ [(bid, w.bufs b)] } := by
  simp only [BufWriter.step, hr] at h
  injection h with h
  exact h.symm

theorem isDone_upd {w : BufWriter.St α} {b : Nat} {bid : Bid} {t : List (Bid × α)} (b' : Nat) (h : isDone w b' = true ∨ b' = b) :
    isDone { w with reqs := upd w.reqs b (some (bid, true)), transferred := t } b' = true := by
  unfold isDone
  simp only
  by_cases hb : b' = b
  · subst hb; rw [BufWriter.upd_same]
  · rw [BufWriter.upd_ne _ _ hb]
    rcases h with h | h
    · exact h
    · exact absurd h hb

theorem step_ok_inv {n wbs : Nat} (hw : 0 < wbs) {s s' : St α} (hi : FInv n wbs s) {op : Op α} (hl : Legal s op) (h : step n wbs s op = .ok s') :
    FInv n wbs s' := by
  cases op with
  | fill b v =>
    obtain ⟨hc, w', h1, rfl⟩ := call_ok h
    have h2 := h1
    simp only [BufWriter.step] at h2
    split at h2
    · rename_i hpc
      injection h2 with h2
      subst h2
      exact lift_inv hw hi (op := .fill b v) hl h1 hi.bad rfl s.scan s.gets s.kept s.closing (by intro h; rw [hpc] at h; rcases h with h | h <;> cases h)
    · cases h2
  | callGet =>
    obtain ⟨hc, w', h1, rfl⟩ := call_ok h
    have h2 := h1
    simp only [BufWriter.step] at h2
    split at h2
    · injection h2 with h2
      subst h2
      exact lift_inv hw hi (op := .callGet) trivial h1 hi.bad rfl s.scan s.gets s.kept s.closing (by rintro (h | h) <;> cases h)
    · cases h2
  | callWrite b bid =>
    obtain ⟨hc, w', h1, rfl⟩ := call_ok h
    have h2 := h1
    simp only [BufWriter.step] at h2
    split at h2
    · injection h2 with h2
      subst h2
      exact lift_inv hw hi (op := .callWrite b bid) hl h1 hi.bad rfl s.scan s.gets s.kept s.closing (by rintro (h | h) <;> cases h)
    · cases h2
  | callFlush =>
    obtain ⟨hc, w', h1, rfl⟩ := call_ok h
    obtain ⟨h2, h3⟩ := flush_kept hi h1
    exact lift_inv hw hi (op := .callFlush) trivial h1 (by rw [h2]; exact hi.bad) (by rw [h2]) s.scan s.gets s.w.held s.closing (fun _ => h3)
  | callClose =>
    simp only [step] at h
    split at h
    · cases h
    · obtain ⟨w', h1, rfl⟩ := lift_ok h
      obtain ⟨h2, h3⟩ := flush_kept hi h1
      exact lift_inv hw hi (op := .callFlush) trivial h1 (by rw [h2]; exact hi.bad) (by rw [h2]) s.scan s.gets s.w.held true (fun _ => h3)
  | work c => exact work_ok_inv hw hi h
  | done b =>
    simp only [step] at h
    split at h
    · rename_i bid hr
      split at h
      · cases h
      · obtain ⟨w', h1, rfl⟩ := lift_ok h
        have hb := BufWriter.step_inv hw hi.base (op := .done b) trivial h1
        have h2 := done_facts hr h1
        refine ⟨hb, ?_, hi.fails, ?_, ?_, hi.exc, hi.stl, fun h => .next (.done b) (hi.reach h) trivial h1⟩
        · intro b' hb'
          show b' ∈ w'.busy ∧ isDone w' b' = true
          rw [h2]
          exact ⟨(hi.bad b' hb').1, isDone_upd b' (Or.inl (hi.bad b' hb').2)⟩
        · show w'.transferred.Perm _
          rw [h2]
          show (s.w.transferred ++ [(bid, s.w.bufs b)]).Perm ((s.stored ++ [(bid, s.w.bufs b)]) ++ s.failed)
          refine (hi.log.append_right _).trans ?_
          simp only [List.append_assoc]
          exact List.Perm.append_left _ List.perm_append_comm
        · show w'.pc = .flushing ∨ w'.pc = .draining → (s.kept ++ places w').Nodup ∧ (∀ x ∈ s.kept, x < n) ∧ (s.kept ++ places w').length = n
          rw [h2]; exact hi.kept
    · cases h
  | fail b =>
    simp only [step] at h
    split at h
    · rename_i bid hr
      split at h
      · cases h
      · obtain ⟨w', h1, rfl⟩ := lift_ok h
        have hb := BufWriter.step_inv hw hi.base (op := .done b) trivial h1
        have h2 := done_facts hr h1
        refine ⟨hb, ?_, ?_, ?_, ?_, ?_, hi.stl, fun h => .next (.done b) (hi.reach h) trivial h1⟩
        · intro b' hb'
          show b' ∈ w'.busy ∧ isDone w' b' = true
          rw [h2]
          by_cases hbb : b' = b
          · exact ⟨by rw [hbb]; exact hi.base.pend b bid hr, isDone_upd b' (Or.inr hbb)⟩
          · have hb' : upd s.err b true b' = true := hb'
            rw [BufWriter.upd_ne _ _ hbb] at hb'
            exact ⟨(hi.bad b' hb').1, isDone_upd b' (Or.inl (hi.bad b' hb').2)⟩
        · constructor
          · intro h; simp at h
          · intro h
            have : upd s.err b true b = false := h b
            rw [BufWriter.upd_same] at this
            cases this
        · show w'.transferred.Perm _
          rw [h2]
          show (s.w.transferred ++ [(bid, s.w.bufs b)]).Perm (s.stored ++ (s.failed ++ [(bid, s.w.bufs b)]))
          rw [← List.append_assoc]
          exact hi.log.append_right _
        · show w'.pc = .flushing ∨ w'.pc = .draining → (s.kept ++ places w').Nodup ∧ (∀ x ∈ s.kept, x < n) ∧ (s.kept ++ places w').length = n
          rw [h2]; exact hi.kept
        · intro _ h; simp at h
    · cases h

theorem step_threw_inv {n wbs : Nat} {s s' : St α} (hi : FInv n wbs s) {op : Op α} (h : step n wbs s op = .threw s') : FInv n wbs s' := by
  obtain ⟨c, _, h⟩ := step_threw h
  rcases work_threw hi h with ⟨hpc, h⟩ | ⟨hpc, h⟩
  · obtain ⟨x, l, h1, _, _, rfl⟩ := get_threw hpc h
    exact get_threw_inv hi hpc _ h1
  · obtain ⟨x, h1, _, rfl⟩ := drain_threw hpc h
    exact drain_threw_inv hi hpc h1

theorem reach_inv {n wbs : Nat} (hw : 0 < wbs) {s : St α} (h : Reach n wbs Legal s) : FInv n wbs s := by
  induction h with
  | start bufs bids => exact init_inv n wbs bufs bids
  | next op _ hl hs ih => exact step_ok_inv hw ih hl hs
  | threw op _ _ hs ih => exact step_threw_inv ih hs

end Foxxll.WriterFail
