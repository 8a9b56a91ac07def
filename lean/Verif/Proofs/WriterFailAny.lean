/-
The writer with failing writes and any client: errors stay.
-/
import Verif.Spec.WriterFail
import Verif.Proofs.WriterFail

set_option linter.unusedSimpArgs false

namespace Foxxll.WriterFail

open BufWriter (Bid upd isDone)

variable {α : Type}

structure RInv (s : St α) : Prop where
  pend : ∀ b bid, s.w.reqs b = some (bid, false) → b ∈ s.w.busy
  bad : ∀ b, s.err b = true → b ∈ s.w.busy ∧ isDone s.w b = true
  fails : s.failed = [] ↔ ∀ b, s.err b = false
  exc : 0 < s.thrown → s.failed ≠ []

theorem pend_done {w : BufWriter.St α} {b : Nat} {bid : Bid} (h : w.reqs b = some (bid, false)) : isDone w b = false := by simp [isDone, h]

/-- What the steps of the client thread that end normally do to the list of busy blocks. -/
inductive Change (s s' : St α) : Prop
  | same : s'.w.busy = s.w.busy → s'.w.reqs = s.w.reqs → s'.gets = s.gets → s'.scan = s.scan → Change s s'
  | scan : s'.w = s.w → s'.gets = s.gets → s'.scan = s.scan + 1 → (∀ x, s.w.busy[s.scan]? = some x → isDone s.w x = false) → Change s s'
  | took : s'.w.busy = s.w.busy → s'.w.reqs = s.w.reqs → s'.gets = s.gets + 1 → s'.scan = 0 → s.w.busy.length ≤ s.scan → Change s s'
  | got (i x : Nat) : s.w.busy[i]? = some x → isDone s.w x = true → s.err x = false → s'.w.busy = s.w.busy.eraseIdx i → s'.w.reqs = s.w.reqs →
      s'.gets = s.gets + 1 → s'.scan = 0 → (i = s.scan ∨ s.w.busy.length ≤ s.scan) → Change s s'
  | sub (x : Nat) (bid : Bid) : (isDone s.w x = true → s.err x = false) → s'.w.busy = s.w.busy ++ [x] → s'.w.reqs = upd s.w.reqs x (some (bid, false)) →
      s'.gets = s.gets → s'.scan = s.scan → Change s s'
  | clear : (∀ x ∈ s.w.busy, isDone s.w x = true ∧ s.err x = false) → s'.w.busy = [] → s'.w.reqs = s.w.reqs → s'.gets = s.gets → Change s s'

theorem scan_not_done {n wbs : Nat} {s s' : St α} {c : Nat} (h : get n wbs s c = .ok s') (h1 : s' = { s with scan := s.scan + 1 }) :
    ∀ x, s.w.busy[s.scan]? = some x → isDone s.w x = false := by
  intro x hx
  cases hd : isDone s.w x with
  | false => rfl
  | true =>
    unfold get at h
    simp only [hx, hd, if_true] at h
    split at h
    · exact (raise_ok h).elim
    · obtain ⟨w, _, h2⟩ := ret_ok h
      rw [h1] at h2
      have := congrArg St.gets h2
      simp at this

theorem work_change {n wbs : Nat} {s s' : St α} {c : Nat} (h : work n wbs s c = .ok s') :
    Change s s' ∧ s'.err = s.err ∧ s'.failed = s.failed ∧ s'.thrown = s.thrown ∧ s'.closing = s.closing ∧ s'.stored = s.stored := by
  have hsub : s.w.batch.isEmpty = false → (∃ b bid, s.w.pc = .writing b bid true) ∨ s.w.pc = .flushing → submit n wbs s c = .ok s' →
      Change s s' ∧ s'.err = s.err ∧ s'.failed = s.failed ∧ s'.thrown = s.thrown ∧ s'.closing = s.closing ∧ s'.stored = s.stored := by
    intro hne hpc h
    unfold submit at h
    split at h
    · cases h
    · rename_i e rest hp
      split at h
      · exact (raise_ok h).elim
      · rename_i hb
        obtain ⟨w', h1, rfl⟩ := lift_ok h
        have h2 : BufWriter.submitOne s.w c = some w' := by
          rcases hpc with ⟨b, bid, hpc⟩ | hpc <;> simpa [BufWriter.work, hpc, hne] using h1
        obtain ⟨e', rest', hp', rfl⟩ := submitOne_facts h2
        rw [hp] at hp'
        have : e = e' := by injection hp' with h; exact (Prod.mk.inj h).1
        subst this
        exact ⟨.sub e.2 _ (fun hd => by simpa [hd] using hb) rfl rfl rfl rfl, rfl, rfl, rfl, rfl, rfl⟩
  unfold work at h
  split at h
  · cases h
  · rename_i b bid hpc
    obtain ⟨w', h1, rfl⟩ := lift_ok h
    simp only [BufWriter.work, hpc] at h1
    split at h1 <;> injection h1 with h1 <;> subst h1 <;> exact ⟨.same rfl rfl rfl rfl, rfl, rfl, rfl, rfl, rfl⟩
  · rename_i b bid hpc
    split at h
    · rename_i hb
      obtain ⟨w', h1, rfl⟩ := lift_ok h
      simp only [BufWriter.work, hpc, hb, if_true] at h1
      injection h1 with h1
      subst h1
      exact ⟨.same rfl rfl rfl rfl, rfl, rfl, rfl, rfl, rfl⟩
    · rename_i hb
      exact hsub (by simpa using hb) (Or.inl ⟨b, bid, hpc⟩) h
  · rename_i hpc
    rcases get_ok hpc h with h1 | ⟨w', p, k, h1, rfl, h3, h4, h5, h6⟩
    · have hs := scan_not_done h h1
      subst h1
      exact ⟨.scan rfl rfl rfl hs, rfl, rfl, rfl, rfl, rfl⟩
    · refine ⟨?_, rfl, rfl, rfl, rfl, rfl⟩
      rcases h6 with ⟨h6, h7, _⟩ | ⟨i, x, hx, hd, he, h6, _, h8⟩
      · exact .took h6 h3 rfl rfl h7
      · exact .got i x hx hd he h6 h3 rfl rfl h8
  · rename_i hpc
    split at h
    · rename_i hb
      obtain ⟨w', h1, rfl⟩ := lift_ok h
      simp only [BufWriter.work, hpc, hb, if_true] at h1
      injection h1 with h1
      subst h1
      exact ⟨.same rfl rfl rfl rfl, rfl, rfl, rfl, rfl, rfl⟩
    · rename_i hb
      exact hsub (by simpa using hb) (Or.inr hpc) h
  · rename_i hpc
    unfold drain at h
    split at h
    · rename_i hd
      obtain ⟨w', h2, rfl⟩ := lift_ok h
      simp only [BufWriter.work, hpc] at h2
      split at h2
      · injection h2 with h2
        subst h2
        refine ⟨.clear (fun x hx => ?_) rfl rfl rfl, rfl, rfl, rfl, rfl, rfl⟩
        have := dropWhile_all hd x hx
        simpa using this
      · cases h2
    · split at h
      · exact (raise_ok h).elim
      · cases h

theorem change_inv {s s' : St α} (hi : RInv s) (h : Change s s') (h1 : s'.err = s.err) (h2 : s'.failed = s.failed) (h3 : s'.thrown = s.thrown) : RInv s' := by
  have key : (∀ b bid, s'.w.reqs b = some (bid, false) → b ∈ s'.w.busy) → (∀ b, s.err b = true → b ∈ s'.w.busy ∧ isDone s'.w b = true) → RInv s' :=
    fun a b => ⟨a, by rw [h1]; exact b, by rw [h1, h2]; exact hi.fails, by rw [h2, h3]; exact hi.exc⟩
  have hsame : s'.w.busy = s.w.busy → s'.w.reqs = s.w.reqs → RInv s' := fun a b => by
    refine key (by rw [a, b]; exact hi.pend) (fun x hx => ?_)
    rw [a, isDone_congr b]
    exact hi.bad x hx
  cases h with
  | same a b _ _ => exact hsame a b
  | scan a _ _ _ => exact hsame (by rw [a]) (by rw [a])
  | took a b _ _ _ => exact hsame a b
  | got i x hx hd he a b _ _ _ =>
    refine key (fun y bid hy => ?_) (fun y hy => ?_)
    · rw [b] at hy
      rw [a]
      exact mem_eraseIdx' hx (hi.pend y bid hy) (fun h => by have := pend_done hy; rw [h, hd] at this; cases this)
    · rw [a, isDone_congr b]
      exact ⟨mem_eraseIdx' hx (hi.bad y hy).1 (fun h => by rw [h, he] at hy; cases hy), (hi.bad y hy).2⟩
  | sub x bid hx a b _ _ =>
    refine key (fun y bid' hy => ?_) (fun y hy => ?_)
    · rw [a]
      by_cases hyx : y = x
      · simp [hyx]
      · rw [b, BufWriter.upd_ne _ _ hyx] at hy
        simp [hi.pend y bid' hy]
    · have hyx : y ≠ x := fun h => by
        have := hx (h ▸ (hi.bad y hy).2)
        rw [← h, hy] at this
        cases this
      refine ⟨by rw [a]; simp [(hi.bad y hy).1], ?_⟩
      have := (hi.bad y hy).2
      unfold isDone at this ⊢
      rw [b, BufWriter.upd_ne _ _ hyx]
      exact this
  | clear hc a b _ =>
    refine key (fun y bid hy => ?_) (fun y hy => ?_)
    · rw [b] at hy
      have := (hc y (hi.pend y bid hy)).1
      rw [pend_done hy] at this
      cases this
    · rw [(hc y (hi.bad y hy).1).2] at hy
      cases hy

theorem work_threw_any {n wbs : Nat} {s s' : St α} {c : Nat} (h : work n wbs s c = .threw s') :
    (∃ x, s.err x = true) ∧ s'.w.busy = s.w.busy ∧ s'.w.reqs = s.w.reqs ∧ s'.err = s.err ∧ s'.failed = s.failed ∧ s'.thrown = s.thrown + 1 ∧ s.closing = false ∧
      s'.stored = s.stored ∧ s'.closing = false ∧ s'.w.transferred = s.w.transferred ∧ s'.w.pc = .idle := by
  have hsub : submit n wbs s c = .threw s' → (∃ x, s.err x = true) ∧ s'.w.busy = s.w.busy ∧ s'.w.reqs = s.w.reqs ∧ s'.err = s.err ∧ s'.failed = s.failed ∧
      s'.thrown = s.thrown + 1 ∧ s.closing = false ∧ s'.stored = s.stored ∧ s'.closing = false ∧ s'.w.transferred = s.w.transferred ∧ s'.w.pc = .idle := by
    intro h
    unfold submit at h
    split at h
    · cases h
    · split at h
      · rename_i e rest _ hb
        obtain ⟨h1, rfl⟩ := raise_threw h
        simp at hb
        exact ⟨⟨_, hb.2⟩, rfl, rfl, rfl, rfl, rfl, h1, rfl, h1, rfl, rfl⟩
      · exact (lift_threw h).elim
  unfold work at h
  split at h
  · cases h
  · exact (lift_threw h).elim
  · split at h
    · exact (lift_threw h).elim
    · exact hsub h
  · rename_i hpc
    obtain ⟨x, l, h1, _, h2, rfl⟩ := get_threw hpc h
    exact ⟨⟨x, h1⟩, rfl, rfl, rfl, rfl, rfl, h2, rfl, h2, rfl, rfl⟩
  · split at h
    · exact (lift_threw h).elim
    · exact hsub h
  · rename_i hpc
    obtain ⟨x, h1, h2, rfl⟩ := drain_threw hpc h
    exact ⟨⟨x, h1⟩, rfl, rfl, rfl, rfl, rfl, h2, rfl, h2, rfl, rfl⟩

theorem call_same {n wbs : Nat} {w w' : BufWriter.St α} {op : BufWriter.Op α} (hop : (∀ p c, op ≠ .work p c) ∧ ∀ b, op ≠ .done b)
    (h : BufWriter.step n wbs false w op = some w') : w'.busy = w.busy ∧ w'.reqs = w.reqs := by
  cases op with
  | work p c => exact absurd rfl (hop.1 p c)
  | done b => exact absurd rfl (hop.2 b)
  | fill b v => simp only [BufWriter.step] at h; split at h; (injection h with h; subst h; exact ⟨rfl, rfl⟩); cases h
  | callGet => simp only [BufWriter.step] at h; split at h; (injection h with h; subst h; exact ⟨rfl, rfl⟩); cases h
  | callWrite b bid => simp only [BufWriter.step] at h; split at h; (injection h with h; subst h; exact ⟨rfl, rfl⟩); cases h
  | callFlush => simp only [BufWriter.step] at h; split at h; (injection h with h; subst h; exact ⟨rfl, rfl⟩); cases h

/-- Every step that ends normally: the list of busy blocks changes as above, or a request completes. -/
theorem step_change {n wbs : Nat} {s s' : St α} {op : Op α} (h : step n wbs s op = .ok s') :
    (Change s s' ∧ s'.err = s.err ∧ s'.failed = s.failed ∧ s'.thrown = s.thrown) ∨
    ∃ b bid, s.w.reqs b = some (bid, false) ∧ s'.w.busy = s.w.busy ∧ s'.w.reqs = upd s.w.reqs b (some (bid, true)) ∧ s'.gets = s.gets ∧ s'.scan = s.scan ∧
      s'.thrown = s.thrown ∧ ((s'.err = s.err ∧ s'.failed = s.failed) ∨ (s'.err = upd s.err b true ∧ s'.failed = s.failed ++ [(bid, s.w.bufs b)])) := by
  cases op with
  | fill b v =>
    obtain ⟨_, w', h1, rfl⟩ := call_ok h
    obtain ⟨a, b⟩ := call_same (by simp) h1
    exact Or.inl ⟨.same a b rfl rfl, rfl, rfl, rfl⟩
  | callGet =>
    obtain ⟨_, w', h1, rfl⟩ := call_ok h
    obtain ⟨a, b⟩ := call_same (by simp) h1
    exact Or.inl ⟨.same a b rfl rfl, rfl, rfl, rfl⟩
  | callWrite b bid =>
    obtain ⟨_, w', h1, rfl⟩ := call_ok h
    obtain ⟨a, b⟩ := call_same (by simp) h1
    exact Or.inl ⟨.same a b rfl rfl, rfl, rfl, rfl⟩
  | callFlush =>
    obtain ⟨_, w', h1, rfl⟩ := call_ok h
    obtain ⟨a, b⟩ := call_same (by simp) h1
    exact Or.inl ⟨.same a b rfl rfl, rfl, rfl, rfl⟩
  | callClose =>
    simp only [step] at h
    split at h
    · cases h
    · obtain ⟨w', h1, rfl⟩ := lift_ok h
      obtain ⟨a, b⟩ := call_same (by simp) h1
      exact Or.inl ⟨.same a b rfl rfl, rfl, rfl, rfl⟩
  | work c =>
    obtain ⟨a, b, c, d, _⟩ := work_change h
    exact Or.inl ⟨a, b, c, d⟩
  | done b =>
    simp only [step] at h
    split at h
    · rename_i bid hr
      split at h
      · cases h
      · obtain ⟨w', h1, rfl⟩ := lift_ok h
        have h2 := done_facts hr h1
        subst h2
        exact Or.inr ⟨b, bid, hr, rfl, rfl, rfl, rfl, rfl, Or.inl ⟨rfl, rfl⟩⟩
    · cases h
  | fail b =>
    simp only [step] at h
    split at h
    · rename_i bid hr
      split at h
      · cases h
      · obtain ⟨w', h1, rfl⟩ := lift_ok h
        have h2 := done_facts hr h1
        subst h2
        exact Or.inr ⟨b, bid, hr, rfl, rfl, rfl, rfl, rfl, Or.inr ⟨rfl, rfl⟩⟩
    · cases h

theorem isDone_upd' {w w' : BufWriter.St α} {b : Nat} {bid : Bid} (hr : w'.reqs = upd w.reqs b (some (bid, true))) (b' : Nat) (h : isDone w b' = true ∨ b' = b) :
    isDone w' b' = true := by
  unfold isDone
  rw [hr]
  by_cases hb : b' = b
  · subst hb; rw [BufWriter.upd_same]
  · rw [BufWriter.upd_ne _ _ hb]
    rcases h with h | h
    · exact h
    · exact absurd h hb

theorem step_rinv {n wbs : Nat} {s s' : St α} (hi : RInv s) {op : Op α} (h : step n wbs s op = .ok s') : RInv s' := by
  rcases step_change h with ⟨a, b, c, d⟩ | ⟨b, bid, hr, h1, h2, _, _, h5, h6⟩
  · exact change_inv hi a b c d
  · have hp : ∀ b' bid', s'.w.reqs b' = some (bid', false) → b' ∈ s'.w.busy := by
      intro b' bid' hr'
      rw [h2] at hr'
      rw [h1]
      by_cases hb : b' = b
      · rw [hb, BufWriter.upd_same] at hr'; simp at hr'
      · rw [BufWriter.upd_ne _ _ hb] at hr'; exact hi.pend b' bid' hr'
    rcases h6 with ⟨h6, h7⟩ | ⟨h6, h7⟩
    · refine ⟨hp, fun b' hb' => ?_, by rw [h6, h7]; exact hi.fails, by rw [h5, h7]; exact hi.exc⟩
      rw [h6] at hb'
      rw [h1]
      exact ⟨(hi.bad b' hb').1, isDone_upd' h2 b' (Or.inl (hi.bad b' hb').2)⟩
    · refine ⟨hp, fun b' hb' => ?_, ?_, by rw [h7]; simp⟩
      · rw [h1]
        by_cases hb : b' = b
        · exact ⟨by rw [hb]; exact hi.pend b bid hr, isDone_upd' h2 b' (Or.inr hb)⟩
        · rw [h6, BufWriter.upd_ne _ _ hb] at hb'
          exact ⟨(hi.bad b' hb').1, isDone_upd' h2 b' (Or.inl (hi.bad b' hb').2)⟩
      · rw [h7]
        constructor
        · intro h; simp at h
        · intro h
          have := h b
          rw [h6, BufWriter.upd_same] at this
          cases this

theorem threw_rinv {n wbs : Nat} {s s' : St α} (hi : RInv s) {op : Op α} (h : step n wbs s op = .threw s') : RInv s' := by
  obtain ⟨c, _, h⟩ := step_threw h
  obtain ⟨⟨x, hx⟩, h1, h2, h3, h4, _⟩ := work_threw_any h
  refine ⟨by rw [h1, h2]; exact hi.pend, fun b hb => ?_, by rw [h3, h4]; exact hi.fails, fun _ => ?_⟩
  · rw [h3] at hb
    rw [h1, isDone_congr h2]
    exact hi.bad b hb
  · rw [h4]
    intro h
    have := hi.fails.1 h x
    rw [hx] at this
    cases this

theorem init_rinv (n : Nat) (bufs : Nat → α) (bids : Nat → Bid) : RInv (init n bufs bids) := by
  refine ⟨?_, ?_, ⟨fun _ _ => rfl, fun _ => rfl⟩, ?_⟩
  · intro b bid h; cases h
  · intro b h; cases h
  · intro h; cases h

theorem reach_rinv {n wbs : Nat} {legal : St α → Op α → Prop} {s : St α} (h : Reach n wbs legal s) : RInv s := by
  induction h with
  | start bufs bids => exact init_rinv n bufs bids
  | next op _ _ hs ih => exact step_rinv ih hs
  | threw op _ _ hs ih => exact threw_rinv ih hs

theorem idxOf_eraseIdx {b x : Nat} : ∀ {l : List Nat} {i : Nat}, l[i]? = some x → x ≠ b → b ∈ l →
    (l.eraseIdx i).idxOf b = if i < l.idxOf b then l.idxOf b - 1 else l.idxOf b
  | [], i, h, _, _ => by simp at h
  | a :: l, 0, h, hx, hb => by
    simp at h
    subst h
    have h1 : (a :: l).idxOf b = l.idxOf b + 1 := by rw [List.idxOf_cons, show (a == b) = false from by simpa using hx]; rfl
    rw [h1]
    simp
  | a :: l, i + 1, h, hx, hb => by
    simp at h
    by_cases ha : a = b
    · subst ha; simp
    · have hb' : b ∈ l := by rcases List.mem_cons.1 hb with h | h; exact absurd h.symm ha; exact h
      have h1 : (a :: l).idxOf b = l.idxOf b + 1 := by rw [List.idxOf_cons, show (a == b) = false from by simpa using ha]; rfl
      have h2 : (a :: l.eraseIdx i).idxOf b = (l.eraseIdx i).idxOf b + 1 := by rw [List.idxOf_cons, show (a == b) = false from by simpa using ha]; rfl
      rw [List.eraseIdx_cons_succ, h1, h2, idxOf_eraseIdx h hx hb']
      split <;> split <;> omega

theorem idxOf_get {b : Nat} : ∀ {l : List Nat}, b ∈ l → l[l.idxOf b]? = some b
  | a :: l, h => by
    by_cases ha : a = b
    · subst ha; simp
    · have hb' : b ∈ l := by rcases List.mem_cons.1 h with h | h; exact absurd h.symm ha; exact h
      have h1 : (a :: l).idxOf b = l.idxOf b + 1 := by rw [List.idxOf_cons, show (a == b) = false from by simpa using ha]; rfl
      rw [h1]
      simpa using idxOf_get hb'

/-- Number of buffers that `get_free_block` can return before it polls the request of `b`. -/
def budget (b : Nat) (s : St α) : Nat := s.gets + s.w.busy.idxOf b + if s.w.busy.idxOf b < s.scan then 1 else 0

theorem step_budget {n wbs : Nat} {s s' : St α} (hi : RInv s) {b : Nat} (hb : s.err b = true) {op : Op α} (h : step n wbs s op = .ok s') :
    s'.err b = true ∧ budget b s' ≤ budget b s := by
  have hm := (hi.bad b hb).1
  have hg := idxOf_get hm
  have hlt : s.w.busy.idxOf b < s.w.busy.length := List.idxOf_lt_length_iff.2 hm
  rcases step_change h with ⟨a, h1, _, _⟩ | ⟨x, bid, _, h1, _, h3, h4, _, h6⟩
  · refine ⟨by rw [h1]; exact hb, ?_⟩
    unfold budget
    cases a with
    | same a _ c d => rw [a, c, d]; exact Nat.le_refl _
    | scan a c d e =>
      have hne : s.w.busy.idxOf b ≠ s.scan := fun h => by
        have := e b (h ▸ hg)
        rw [(hi.bad b hb).2] at this
        cases this
      rw [a, c, d]
      split <;> split <;> omega
    | took a _ c d e => rw [a, c, d, if_neg (by omega), if_pos (by omega)]; omega
    | got i x hx hd he a _ c d e =>
      have hxb : x ≠ b := fun h => by rw [h, hb] at he; cases he
      have hib : i ≠ s.w.busy.idxOf b := fun h => by rw [h, hg] at hx; exact hxb (Option.some.inj hx).symm
      rw [a, c, d, idxOf_eraseIdx hx hxb hm]
      split <;> split <;> split <;> omega
    | sub x bid _ a _ c d => rw [a, c, d, List.idxOf_append, if_pos hm]; exact Nat.le_refl _
    | clear hc _ _ _ => rw [(hc b hm).2] at hb; cases hb
  · refine ⟨?_, by unfold budget; rw [h1, h3, h4]; exact Nat.le_refl _⟩
    rcases h6 with ⟨h6, _⟩ | ⟨h6, _⟩
    · rw [h6]; exact hb
    · rw [h6]
      by_cases hbx : b = x
      · rw [hbx, BufWriter.upd_same]
      · rw [BufWriter.upd_ne _ _ hbx]; exact hb

theorem quiet_budget {n wbs : Nat} {s s' : St α} (hi : RInv s) {b : Nat} (hb : s.err b = true) (h : Quiet n wbs s s') :
    RInv s' ∧ s'.err b = true ∧ budget b s' ≤ budget b s := by
  induction h with
  | refl => exact ⟨hi, hb, Nat.le_refl _⟩
  | next op _ hs ih =>
    obtain ⟨h1, h2, h3⟩ := ih
    obtain ⟨h4, h5⟩ := step_budget h1 h2 hs
    exact ⟨step_rinv h1 hs, h4, Nat.le_trans h5 h3⟩

end Foxxll.WriterFail
