/-
Invariant of the buffered writer.
-/
import Verif.Model.BufWriter

set_option linter.unusedSimpArgs false

namespace Foxxll.BufWriter

variable {α : Type}

@[simp] theorem upd_same {β : Type} (f : Nat → β) (k : Nat) (v : β) : upd f k v k = v := by simp [upd]
theorem upd_ne {β : Type} (f : Nat → β) {k j : Nat} (v : β) (h : j ≠ k) : upd f k v j = f j := by simp [upd, h]

/-- The buffer being passed to `write`. -/
def cur (s : St α) : List Nat :=
  match s.pc with
  | .writing b _ _ => [b]
  | _ => []

def curW (s : St α) : List (Bid × α) :=
  match s.pc with
  | .writing b bid _ => [(bid, s.bufs b)]
  | _ => []

/-- All places a buffer can be in. -/
def places (s : St α) : List Nat := s.held ++ (s.free ++ (s.busy ++ (s.batch.map (·.2) ++ cur s)))

def pendOf (s : St α) (b : Nat) : Option (Bid × α) :=
  match s.reqs b with
  | some (bid, false) => some (bid, s.bufs b)
  | _ => none

def pending (s : St α) : List (Bid × α) := s.busy.filterMap (pendOf s)

def batched (s : St α) : List (Bid × α) := s.batch.map (fun e => (s.bids e.2, s.bufs e.2))

structure Inv (n wbs : Nat) (s : St α) : Prop where
  nd : (places s).Nodup
  lt : ∀ x ∈ places s, x < n
  pend : ∀ b bid, s.reqs b = some (bid, false) → b ∈ s.busy
  log : s.written.Perm (s.transferred ++ (pending s ++ (batched s ++ curW s)))
  tot : s.pc ≠ .flushing → s.pc ≠ .draining → (places s).length = n
  fl : s.pc = .flushing ∨ s.pc = .draining → s.held = []
  dr : s.pc = .draining → s.batch = []
  bl : s.batch.length ≤ wbs
  br : ∀ b ∈ s.busy, s.reqs b ≠ none

theorem init_inv (n wbs : Nat) (bufs : Nat → α) (bids : Nat → Bid) : Inv n wbs (init n bufs bids) := by
  constructor <;> simp [init, places, cur, curW, pending, batched, List.nodup_range]

theorem perm_eraseIdx {β : Type} {l : List β} {i : Nat} {x : β} (h : l[i]? = some x) :
    l.Perm (x :: l.eraseIdx i) := by
  obtain ⟨hlt, he⟩ := List.getElem?_eq_some_iff.1 h
  have h1 : l = l.take i ++ x :: l.drop (i + 1) := by
    rw [← he, ← List.drop_eq_getElem_cons hlt, List.take_append_drop]
  rw [List.eraseIdx_eq_take_drop_succ]
  conv => lhs; rw [h1]
  exact List.perm_middle

theorem popMin_spec {c : Nat} {l rest : List (Nat × Nat)} {e : Nat × Nat} (h : popMin c l = some (e, rest)) :
    l.Perm (e :: rest) ∧ ∀ e' ∈ l, e.1 ≤ e'.1 := by
  unfold popMin at h
  simp only at h
  split at h
  · exact absurd h (by simp)
  · rename_i x hx
    simp only [Option.some.injEq, Prod.mk.injEq] at h
    obtain ⟨rfl, rfl⟩ := h
    have hm := List.mem_of_getElem? hx
    rw [List.mem_filter, List.all_eq_true] at hm
    exact ⟨List.perm_cons_erase hm.1, fun e' he' => by simpa using hm.2 e' he'⟩

theorem popMin_isSome {c : Nat} {l : List (Nat × Nat)} (hl : l ≠ []) : ∃ x, popMin c l = some x := by
  have hmin : ∀ l : List (Nat × Nat), l ≠ [] → ∃ e ∈ l, ∀ e' ∈ l, e.1 ≤ e'.1 := by
    intro l
    induction l with
    | nil => intro h; exact absurd rfl h
    | cons a l ih =>
      intro _
      by_cases hl : l = []
      · subst hl; exact ⟨a, by simp, by simp⟩
      · obtain ⟨e, he, hle⟩ := ih hl
        by_cases hae : a.1 ≤ e.1
        · refine ⟨a, by simp, ?_⟩
          intro e' he'
          rcases List.mem_cons.1 he' with rfl | he'
          · exact Nat.le_refl _
          · have := hle e' he'; omega
        · refine ⟨e, by simp [he], ?_⟩
          intro e' he'
          rcases List.mem_cons.1 he' with rfl | he'
          · omega
          · exact hle e' he'
  obtain ⟨e, he, hle⟩ := hmin l hl
  unfold popMin
  simp only
  have hc : e ∈ l.filter (fun e => l.all (fun e' => decide (e.1 ≤ e'.1))) := by
    rw [List.mem_filter]
    refine ⟨he, ?_⟩
    rw [List.all_eq_true]
    intro e' he'
    simpa using hle e' he'
  have hlen : 0 < (l.filter (fun e => l.all (fun e' => decide (e.1 ≤ e'.1)))).length := List.length_pos_of_mem hc
  rw [List.getElem?_eq_getElem (Nat.mod_lt c hlen)]
  exact ⟨_, rfl⟩

theorem pending_congr {s s' : St α} (hb : s'.busy = s.busy)
    (h : ∀ b ∈ s.busy, s'.reqs b = s.reqs b ∧ s'.bufs b = s.bufs b) : pending s' = pending s := by
  unfold pending
  rw [hb]
  have key : ∀ (l : List Nat), (∀ b ∈ l, pendOf s' b = pendOf s b) → l.filterMap (pendOf s') = l.filterMap (pendOf s) := by
    intro l
    induction l with
    | nil => intro _; rfl
    | cons a l ih =>
      intro hl
      simp only [List.filterMap_cons]
      rw [hl a (by simp), ih (fun b hb => hl b (by simp [hb]))]
  apply key
  intro b hb
  unfold pendOf
  rw [(h b hb).1, (h b hb).2]

theorem batched_congr {s s' : St α} (hb : s'.batch = s.batch)
    (h : ∀ e ∈ s.batch, s'.bids e.2 = s.bids e.2 ∧ s'.bufs e.2 = s.bufs e.2) : batched s' = batched s := by
  unfold batched
  rw [hb]
  apply List.map_congr_left
  intro e he
  rw [(h e he).1, (h e he).2]

theorem filterMap_congr' {β γ : Type} {f g : β → Option γ} : ∀ (l : List β), (∀ b ∈ l, f b = g b) →
    l.filterMap f = l.filterMap g := by
  intro l
  induction l with
  | nil => intro _; rfl
  | cons a l ih =>
    intro hl
    simp only [List.filterMap_cons]
    rw [hl a (by simp), ih (fun b hb => hl b (by simp [hb]))]

theorem count_tac {l l' : List Nat} (h : ∀ a, l.count a = l'.count a) : l.Perm l' := List.perm_iff_count.2 h

/-- Transport of the placement facts along a permutation. -/
theorem places_perm {n : Nat} {l l' : List Nat} (h : l'.Perm l) (hn : l.Nodup) (hlt : ∀ x ∈ l, x < n) :
    l'.Nodup ∧ (∀ x ∈ l', x < n) ∧ l'.length = l.length :=
  ⟨h.nodup_iff.2 hn, fun x hx => hlt x (h.mem_iff.1 hx), h.length_eq⟩

theorem cur_idle {s : St α} (h : s.pc = .idle) : cur s = [] ∧ curW s = [] := by simp [cur, curW, h]

theorem enqueue_inv {n wbs : Nat} {s : St α} (hi : Inv n wbs s) {b : Nat} {bid : Bid} {f : Bool}
    (hpc : s.pc = .writing b bid f) (hl : s.batch.length + 1 ≤ wbs) : Inv n wbs (enqueue s b bid) := by
  have hcur : cur s = [b] := by simp [cur, hpc]
  have hcurW : curW s = [(bid, s.bufs b)] := by simp [curW, hpc]
  have hp : (places (enqueue s b bid)).Perm (places s) := by
    apply count_tac; intro a
    simp only [places]
    rw [hcur]
    simp only [enqueue, cur, List.count_append, List.map_append, List.map_cons, List.map_nil, List.count_nil]
    omega
  obtain ⟨h1, h2, h3⟩ := places_perm hp hi.nd hi.lt
  have hbn : b ∉ s.batch.map (·.2) := by
    have := hi.nd
    unfold places at this
    rw [hcur] at this
    intro hm
    have h4 := (List.nodup_append.1 (List.nodup_append.1 (List.nodup_append.1 (List.nodup_append.1 this).2.1).2.1).2.1).2.2
    exact h4 b hm b (by simp) rfl
  refine ⟨h1, h2, hi.pend, ?_, ?_, ?_, ?_, ?_, hi.br⟩
  · have e1 : pending (enqueue s b bid) = pending s := pending_congr rfl (fun _ _ => ⟨rfl, rfl⟩)
    have e2 : batched (enqueue s b bid) = batched s ++ [(bid, s.bufs b)] := by
      unfold batched enqueue
      simp only [List.map_append, List.map_cons, List.map_nil, upd_same]
      congr 1
      apply List.map_congr_left
      intro e he
      have hne : e.2 ≠ b := by rintro rfl; exact hbn (List.mem_map_of_mem he)
      rw [upd_ne _ _ hne]
    have e3 : curW (enqueue s b bid) = [] := by simp [curW, enqueue]
    rw [e1, e2, e3]
    have := hi.log
    rw [hcurW] at this
    simpa [enqueue] using this
  · intro _ _
    rw [h3]
    exact hi.tot (by simp [hpc]) (by simp [hpc])
  · intro h; simp [enqueue] at h
  · intro h; simp [enqueue] at h
  · simp [enqueue]; exact hl

theorem submitOne_inv {n wbs : Nat} {s s' : St α} (hi : Inv n wbs s) {c : Nat} (h : submitOne s c = some s')
    (hnd : s.pc ≠ .draining) : Inv n wbs s' := by
  unfold submitOne at h
  split at h
  · exact absurd h (by simp)
  · rename_i e rest hpop
    obtain ⟨hperm, _⟩ := popMin_spec hpop
    have hmem : e ∈ s.batch := hperm.mem_iff.2 (by simp)
    have hplaces : (places s).Nodup := hi.nd
    have hnb : e.2 ∉ s.busy := by
      intro hb
      unfold places at hplaces
      have h4 := (List.nodup_append.1 (List.nodup_append.1 (List.nodup_append.1 hplaces).2.1).2.1).2.2
      exact h4 e.2 hb e.2 (List.mem_append_left _ (List.mem_map_of_mem hmem)) rfl
    have hs' : s' = { s with batch := rest, reqs := upd s.reqs e.2 (some (s.bids e.2, false)), busy := s.busy ++ [e.2] } := by
      split at h
      · exact absurd h (by simp)
      · simpa using h.symm
    subst hs'
    have hp : (places { s with batch := rest, reqs := upd s.reqs e.2 (some (s.bids e.2, false)), busy := s.busy ++ [e.2] }).Perm
        (places s) := by
      apply count_tac; intro a
      have := (hperm.map (·.2)).count_eq a
      simp only [List.map_cons, List.count_cons] at this
      simp only [places, cur, List.count_append, List.count_cons, List.count_nil]
      omega
    obtain ⟨h1, h2, h3⟩ := places_perm hp hi.nd hi.lt
    refine ⟨h1, h2, ?_, ?_, ?_, ?_, ?_, ?_, ?_⟩
    rotate_left 6
    · intro b hb
      simp only at hb ⊢
      by_cases hbe : b = e.2
      · subst hbe; rw [upd_same]; simp
      · rw [upd_ne _ _ hbe]
        simp only [List.mem_append, List.mem_singleton] at hb
        rcases hb with hb | hb
        · exact hi.br b hb
        · exact absurd hb hbe
    · intro b bid hr
      simp only at hr ⊢
      by_cases hb : b = e.2
      · simp [hb]
      · rw [upd_ne _ _ hb] at hr
        simp [hi.pend b bid hr]
    · have e1 : pending { s with batch := rest, reqs := upd s.reqs e.2 (some (s.bids e.2, false)), busy := s.busy ++ [e.2] }
          = pending s ++ [(s.bids e.2, s.bufs e.2)] := by
        unfold pending
        simp only [List.filterMap_append]
        congr 1
        · apply filterMap_congr'
          intro b hb
          have hne : b ≠ e.2 := by rintro rfl; exact hnb hb
          simp only [pendOf]
          rw [upd_ne _ _ hne]
        · simp [pendOf]
      have e2 : (batched s).Perm ((s.bids e.2, s.bufs e.2) ::
          batched { s with batch := rest, reqs := upd s.reqs e.2 (some (s.bids e.2, false)), busy := s.busy ++ [e.2] }) := by
        unfold batched
        have := hperm.map (fun e => (s.bids e.2, s.bufs e.2))
        simpa using this
      rw [e1]
      refine hi.log.trans ?_
      refine List.Perm.append_left _ ?_
      rw [List.append_assoc]
      refine List.Perm.append_left _ ?_
      have := e2.append_right (curW s)
      simpa [curW] using this
    · intro h4 h5; rw [h3]; exact hi.tot h4 h5
    · exact hi.fl
    · intro h; exact absurd h hnd
    · have := hi.bl
      have h4 := hperm.length_eq
      simp only [List.length_cons] at h4
      show rest.length ≤ wbs
      omega

theorem pollStage_inv {n wbs : Nat} {s s' : St α} (hi : Inv n wbs s) (hpc : s.pc = .getting) {p : Option Nat}
    (h : pollStage s p = some s') : Inv n wbs s' ∧ s'.pc = .getting := by
  cases p with
  | none =>
    simp only [pollStage, Option.some.injEq] at h
    subst h; exact ⟨hi, hpc⟩
  | some i =>
    simp only [pollStage] at h
    split at h
    · exact absurd h (by simp)
    · rename_i x hx
      split at h
      · rename_i hd
        simp only [Option.some.injEq] at h
        subst h
        have hperm := perm_eraseIdx hx
        have hp : (places { s with busy := s.busy.eraseIdx i, free := s.free ++ [x] }).Perm (places s) := by
          apply count_tac; intro a
          have := hperm.count_eq a
          simp only [List.count_cons] at this
          simp only [places, cur, List.count_append, List.count_cons, List.count_nil]
          omega
        obtain ⟨h1, h2, h3⟩ := places_perm hp hi.nd hi.lt
        refine ⟨⟨h1, h2, ?_, ?_, ?_, ?_, ?_, hi.bl, fun b hb => hi.br b (hperm.mem_iff.2 (by simp [hb]))⟩, hpc⟩
        · intro b bid hr
          have hb := hi.pend b bid hr
          have hne : b ≠ x := by
            rintro rfl
            unfold isDone at hd
            have hr' : s.reqs b = some (bid, false) := hr
            rw [hr'] at hd
            simp at hd
          rcases List.mem_cons.1 (hperm.mem_iff.1 hb) with h | h
          · exact absurd h hne
          · exact h
        · have e1 : (pending { s with busy := s.busy.eraseIdx i, free := s.free ++ [x] }).Perm (pending s) := by
            unfold pending
            have hx0 : pendOf s x = none := by
              unfold isDone at hd
              unfold pendOf
              split <;> simp_all
            have := hperm.filterMap (pendOf s)
            simp only [List.filterMap_cons, hx0] at this
            exact this.symm
          refine hi.log.trans ?_
          refine List.Perm.append_left _ ?_
          exact List.Perm.append_right _ e1.symm
        · intro h4 h5; rw [h3]; exact hi.tot h4 h5
        · exact hi.fl
        · exact hi.dr
      · exact absurd h (by simp)

theorem getLast_split {l : List Nat} {x : Nat} (h : l.getLast? = some x) : l = l.dropLast ++ [x] := by
  obtain ⟨h1, h2⟩ := List.getLast?_eq_some_iff.1 h
  rw [h2]; simp

/-- The buffer handed out was in no other place, and its request is not pending. -/
theorem takeStage_inv {n wbs : Nat} {s s' : St α} (hi : Inv n wbs s) (hpc : s.pc = .getting) {c : Nat}
    (h : takeStage s c = some s') : Inv n wbs s' ∧ s'.pc = .idle ∧ ∃ x, s'.held = s.held ++ [x] := by
  unfold takeStage at h
  split at h
  · rename_i x hx
    simp only [Option.some.injEq] at h
    subst h
    have hsplit := getLast_split hx
    have hp : (places (handOut { s with free := s.free.dropLast } x)).Perm (places s) := by
      apply count_tac; intro a
      simp only [places, cur, handOut, hpc, List.count_append, List.count_cons, List.count_nil]
      conv => rhs; rw [hsplit]
      simp only [List.count_append, List.count_cons, List.count_nil]
      omega
    obtain ⟨h1, h2, h3⟩ := places_perm hp hi.nd hi.lt
    refine ⟨⟨h1, h2, hi.pend, ?_, ?_, ?_, ?_, hi.bl, hi.br⟩, rfl, x, rfl⟩
    · have := hi.log
      rw [show curW s = [] by simp [curW, hpc]] at this
      exact this
    · intro _ _; rw [h3]; exact hi.tot (by simp [hpc]) (by simp [hpc])
    · intro h; simp [handOut] at h
    · intro h; simp [handOut] at h
  · split at h
    · exact absurd h (by simp)
    · rename_i x hx
      split at h
      · rename_i hd
        simp only [Option.some.injEq] at h
        subst h
        have hperm := perm_eraseIdx hx
        have hp : (places (handOut { s with busy := s.busy.eraseIdx c } x)).Perm (places s) := by
          apply count_tac; intro a
          have := hperm.count_eq a
          simp only [List.count_cons] at this
          simp only [places, cur, handOut, hpc, List.count_append, List.count_cons, List.count_nil]
          omega
        obtain ⟨h1, h2, h3⟩ := places_perm hp hi.nd hi.lt
        refine ⟨⟨h1, h2, ?_, ?_, ?_, ?_, ?_, hi.bl, fun b hb => hi.br b (hperm.mem_iff.2 (List.mem_cons_of_mem _ hb))⟩, rfl, x, rfl⟩
        · intro b bid hr
          have hb := hi.pend b bid hr
          have hne : b ≠ x := by
            rintro rfl
            unfold isDone at hd
            have hr' : s.reqs b = some (bid, false) := hr
            rw [hr'] at hd
            simp at hd
          rcases List.mem_cons.1 (hperm.mem_iff.1 hb) with h | h
          · exact absurd h hne
          · exact h
        · have e1 : (pending (handOut { s with busy := s.busy.eraseIdx c } x)).Perm (pending s) := by
            unfold pending
            have hx0 : pendOf s x = none := by
              unfold isDone at hd
              unfold pendOf
              split <;> simp_all
            have := hperm.filterMap (pendOf s)
            simp only [List.filterMap_cons, hx0] at this
            exact this.symm
          have e2 : curW s = [] := by simp [curW, hpc]
          have hl := hi.log
          rw [e2] at hl
          refine hl.trans ?_
          refine List.Perm.append_left _ ?_
          exact List.Perm.append e1.symm (List.Perm.refl _)
        · intro _ _; rw [h3]; exact hi.tot (by simp [hpc]) (by simp [hpc])
        · intro h; simp [handOut] at h
        · intro h; simp [handOut] at h
      · exact absurd h (by simp)

theorem work_inv {n wbs : Nat} (hw : 0 < wbs) {s s' : St α} (hi : Inv n wbs s) {p : Option Nat} {c : Nat}
    (h : work n wbs s p c = some s') : Inv n wbs s' := by
  unfold work at h
  split at h
  · exact absurd h (by simp)
  · rename_i b bid hpc
    split at h
    · simp only [Option.some.injEq] at h
      subst h
      have hp : places { s with pc := .writing b bid true } = places s := by simp [places, cur, hpc]
      refine ⟨by rw [hp]; exact hi.nd, by rw [hp]; exact hi.lt, hi.pend, ?_, ?_, ?_, ?_, hi.bl, hi.br⟩
      · have := hi.log
        rw [show curW s = [(bid, s.bufs b)] by simp [curW, hpc]] at this
        exact this
      · intro _ _; rw [hp]; exact hi.tot (by simp [hpc]) (by simp [hpc])
      · intro h; simp at h
      · intro h; simp at h
    · rename_i hlt
      simp only [Option.some.injEq] at h
      subst h
      exact enqueue_inv hi hpc (by omega)
  · rename_i b bid hpc
    split at h
    · rename_i he
      simp only [Option.some.injEq] at h
      subst h
      have : s.batch = [] := by simpa using he
      exact enqueue_inv hi hpc (by rw [this]; simp; omega)
    · exact submitOne_inv hi h (by simp [hpc])
  · rename_i hpc
    rw [Option.bind_eq_some_iff] at h
    obtain ⟨s1, h1, h2⟩ := h
    obtain ⟨hi1, hpc1⟩ := pollStage_inv hi hpc h1
    exact (takeStage_inv hi1 hpc1 h2).1
  · rename_i hpc
    split at h
    · rename_i he
      simp only [Option.some.injEq] at h
      subst h
      have hp : places { s with pc := .draining } = places s := by simp [places, cur, hpc]
      refine ⟨by rw [hp]; exact hi.nd, by rw [hp]; exact hi.lt, hi.pend, ?_, ?_, ?_, ?_, hi.bl, hi.br⟩
      · have := hi.log
        rw [show curW s = [] by simp [curW, hpc]] at this
        exact this
      · intro _ h2; exact absurd rfl h2
      · intro _; exact hi.fl (.inl hpc)
      · intro _; simpa using he
    · exact submitOne_inv hi h (by simp [hpc])
  · rename_i hpc
    split at h
    · rename_i hall
      simp only [Option.some.injEq] at h
      subst h
      have hheld := hi.fl (.inr hpc)
      have hbatch := hi.dr hpc
      have hp : places { s with pc := Pc.idle, free := List.range n, busy := [] } = List.range n := by
        simp [places, cur, hheld, hbatch]
      have hnone : ∀ b bid, s.reqs b ≠ some (bid, false) := by
        intro b bid hr
        have hb := hi.pend b bid hr
        have := List.all_eq_true.1 hall b hb
        unfold isDone at this
        rw [hr] at this
        simp at this
      refine ⟨by rw [hp]; exact List.nodup_range, ?_, ?_, ?_, ?_, ?_, ?_, hi.bl, by simp⟩
      · rw [hp]; intro x hx; exact List.mem_range.1 hx
      · intro b bid hr; exact absurd hr (hnone b bid)
      · have hl := hi.log
        have e0 : pending s = [] := by
          unfold pending
          rw [List.filterMap_eq_nil_iff]
          intro b _
          unfold pendOf
          split
          · rename_i bid hr; exact absurd hr (hnone b bid)
          · rfl
        have e2 : curW s = [] := by simp [curW, hpc]
        rw [e0, e2] at hl
        simpa [pending, batched, curW] using hl
      · intro _ _; rw [hp]; simp
      · intro h; simp at h
      · intro h; simp at h
    · exact absurd h (by simp)

theorem step_inv {n wbs : Nat} (hw : 0 < wbs) {s s' : St α} (hi : Inv n wbs s) {op : Op α} (hl : Legal s op)
    (h : step n wbs false s op = some s') : Inv n wbs s' := by
  cases op with
  | fill b v =>
    simp only [step] at h
    split at h
    · rename_i hpc
      simp only [Option.some.injEq] at h
      subst h
      simp only [Legal] at hl
      have hout : b ∉ s.busy ∧ b ∉ s.batch.map (·.2) := by
        have := hi.nd
        unfold places at this
        have h4 := (List.nodup_append.1 this).2.2
        exact ⟨fun hb => h4 b hl b (by simp [hb]) rfl, fun hb => h4 b hl b (by
          simp only [List.mem_append]; exact .inr (.inr (.inl hb))) rfl⟩
      refine ⟨hi.nd, hi.lt, hi.pend, ?_, hi.tot, hi.fl, hi.dr, hi.bl, hi.br⟩
      have e1 : pending { s with bufs := upd s.bufs b v } = pending s := by
        refine pending_congr (s := s) ?_ ?_
        · rfl
        intro b' hb'
        have hne : b' ≠ b := by rintro rfl; exact hout.1 hb'
        exact ⟨rfl, upd_ne _ _ hne⟩
      have e2 : batched { s with bufs := upd s.bufs b v } = batched s := by
        refine batched_congr (s := s) ?_ ?_
        · rfl
        intro e he
        have hne : e.2 ≠ b := by rintro rfl; exact hout.2 (List.mem_map_of_mem he)
        exact ⟨rfl, upd_ne _ _ hne⟩
      rw [e1, e2]
      have e3 : curW s = [] := (cur_idle hpc).2
      have e4 : curW { s with bufs := upd s.bufs b v } = [] := (cur_idle (s := { s with bufs := upd s.bufs b v }) hpc).2
      rw [e4, ← e3]
      exact hi.log
    · exact absurd h (by simp)
  | callGet =>
    simp only [step] at h
    split at h
    · rename_i hpc
      simp only [Option.some.injEq] at h
      subst h
      have hp : places { s with pc := Pc.getting } = places s := by simp [places, cur, hpc]
      refine ⟨by rw [hp]; exact hi.nd, by rw [hp]; exact hi.lt, hi.pend, ?_, ?_, ?_, ?_, hi.bl, hi.br⟩
      · have := hi.log
        rw [show curW s = [] by simp [curW, hpc]] at this
        exact this
      · intro _ _; rw [hp]; exact hi.tot (by simp [hpc]) (by simp [hpc])
      · intro h; simp at h
      · intro h; simp at h
    · exact absurd h (by simp)
  | callWrite b bid =>
    simp only [step] at h
    split at h
    · rename_i hpc
      simp only [Option.some.injEq] at h
      subst h
      simp only [Legal] at hl
      have hp : (places { s with
          pc := Pc.writing b bid false
          written := s.written ++ [(bid, s.bufs b)]
          held := s.held.erase b }).Perm (places s) := by
        apply count_tac; intro a
        have := (List.perm_cons_erase hl).count_eq a
        simp only [List.count_cons] at this
        simp only [places, cur, hpc, List.count_append, List.count_cons, List.count_nil]
        omega
      obtain ⟨h1, h2, h3⟩ := places_perm hp hi.nd hi.lt
      refine ⟨h1, h2, hi.pend, ?_, ?_, ?_, ?_, hi.bl, hi.br⟩
      · have := (hi.log).append_right [(bid, s.bufs b)]
        have e3 : curW s = [] := (cur_idle hpc).2
        rw [e3, List.append_nil] at this
        simp only [List.append_assoc] at this
        exact this
      · intro _ _; rw [h3]; exact hi.tot (by simp [hpc]) (by simp [hpc])
      · intro h; simp at h
      · intro h; simp at h
    · exact absurd h (by simp)
  | callFlush =>
    simp only [step] at h
    split at h
    · rename_i hpc
      simp only [Bool.false_eq_true, if_false, Option.some.injEq] at h
      subst h
      have hp : (places { s with pc := Pc.flushing, held := [] }).Sublist (places s) := by
        simp only [places, cur, hpc, List.nil_append]
        exact List.sublist_append_right _ _
      refine ⟨hi.nd.sublist hp, fun x hx => hi.lt x (hp.subset hx), hi.pend, ?_, ?_, ?_, ?_, hi.bl, hi.br⟩
      · have := hi.log
        have e3 : curW s = [] := (cur_idle hpc).2
        rw [e3] at this
        exact this
      · intro h; exact absurd rfl h
      · intro _; rfl
      · intro h; simp at h
    · exact absurd h (by simp)
  | work p c => exact work_inv hw hi h
  | done b =>
    simp only [step] at h
    split at h
    · rename_i bid hr
      simp only [Option.some.injEq] at h
      subst h
      have hb := hi.pend b bid hr
      have hbn : s.busy.Nodup := by
        have := hi.nd
        unfold places at this
        exact (List.nodup_append.1 (List.nodup_append.1 (List.nodup_append.1 this).2.1).2.1).1
      refine ⟨hi.nd, hi.lt, ?_, ?_, hi.tot, hi.fl, hi.dr, hi.bl, ?_⟩
      rotate_left 2
      · intro b' hb'
        simp only
        by_cases hbb : b' = b
        · subst hbb; rw [upd_same]; simp
        · rw [upd_ne _ _ hbb]; exact hi.br b' hb'
      · intro b' bid' hr'
        simp only at hr'
        by_cases hbb : b' = b
        · subst hbb; rw [upd_same] at hr'; simp at hr'
        · rw [upd_ne _ _ hbb] at hr'; exact hi.pend b' bid' hr'
      · have hsplit := List.perm_cons_erase hb
        have hne : ∀ x ∈ s.busy.erase b, x ≠ b := by
          intro x hx
          exact ((List.Nodup.mem_erase_iff hbn).1 hx).1
        have e1 : (pending s).Perm ((bid, s.bufs b) :: (s.busy.erase b).filterMap (pendOf s)) := by
          unfold pending
          have := hsplit.filterMap (pendOf s)
          have hx : pendOf s b = some (bid, s.bufs b) := by simp [pendOf, hr]
          simp only [List.filterMap_cons, hx] at this
          exact this
        have e2 : (pending { s with reqs := upd s.reqs b (some (bid, true)), transferred := s.transferred ++ [(bid, s.bufs b)] }).Perm
            ((s.busy.erase b).filterMap (pendOf s)) := by
          unfold pending
          have := hsplit.filterMap (pendOf { s with reqs := upd s.reqs b (some (bid, true)), transferred := s.transferred ++ [(bid, s.bufs b)] })
          have hx : pendOf { s with reqs := upd s.reqs b (some (bid, true)), transferred := s.transferred ++ [(bid, s.bufs b)] } b = none := by
            simp [pendOf]
          simp only [List.filterMap_cons, hx] at this
          refine this.trans ?_
          rw [filterMap_congr' _ (g := pendOf s)]
          intro x hx
          simp only [pendOf]
          rw [upd_ne _ _ (hne x hx)]
        have e3 : batched { s with reqs := upd s.reqs b (some (bid, true)), transferred := s.transferred ++ [(bid, s.bufs b)] }
            = batched s := rfl
        have e4 : curW { s with reqs := upd s.reqs b (some (bid, true)), transferred := s.transferred ++ [(bid, s.bufs b)] }
            = curW s := rfl
        rw [e3, e4]
        refine hi.log.trans ?_
        simp only [List.append_assoc]
        refine List.Perm.append_left _ ?_
        refine (List.Perm.append_right _ e1).trans ?_
        simp only [List.cons_append, List.nil_append]
        refine List.Perm.cons _ ?_
        exact List.Perm.append_right _ e2.symm
    · exact absurd h (by simp)

theorem reach_inv {n wbs : Nat} (hw : 0 < wbs) {legal : St α → Op α → Prop} (hle : ∀ s op, legal s op → Legal s op)
    {s : St α} (h : Reach n wbs false legal s) : Inv n wbs s := by
  induction h with
  | start bufs bids => exact init_inv n wbs bufs bids
  | next op _ hl hs ih => exact step_inv hw ih (hle _ _ hl) hs

/-- With a client that works with one buffer, nothing is held inside of a method. -/
theorem one_held {n wbs : Nat} {s : St α} (h : Reach n wbs false Legal1 s) :
    (s.pc ≠ .idle → s.held = []) ∧ s.held.length ≤ 1 := by
  induction h with
  | start bufs bids => simp [init]
  | @next s s' op _ hl hs ih =>
    cases op with
    | fill b v =>
      simp only [step] at hs
      split at hs
      · simp only [Option.some.injEq] at hs; subst hs; exact ih
      · exact absurd hs (by simp)
    | callGet =>
      simp only [Legal1] at hl
      simp only [step] at hs
      split at hs
      · simp only [Option.some.injEq] at hs; subst hs; simp [hl]
      · exact absurd hs (by simp)
    | callWrite b bid =>
      simp only [Legal1] at hl
      simp only [step] at hs
      split at hs
      · simp only [Option.some.injEq] at hs; subst hs; simp [hl]
      · exact absurd hs (by simp)
    | callFlush =>
      simp only [step] at hs
      split at hs
      · simp only [Option.some.injEq] at hs; subst hs; simp
      · exact absurd hs (by simp)
    | done b =>
      simp only [step] at hs
      split at hs
      · simp only [Option.some.injEq] at hs; subst hs; exact ih
      · exact absurd hs (by simp)
    | work p c =>
      have hsub : ∀ {s s' : St α} {c : Nat}, submitOne s c = some s' → s'.held = s.held ∧ s'.pc = s.pc := by
        intro s s' c h
        unfold submitOne at h
        split at h
        · exact absurd h (by simp)
        · split at h
          · exact absurd h (by simp)
          · simp only [Option.some.injEq] at h; subst h; exact ⟨rfl, rfl⟩
      simp only [step, work] at hs
      split at hs
      · exact absurd hs (by simp)
      · rename_i b bid hpc
        have hh := ih.1 (by simp [hpc])
        split at hs
        · simp only [Option.some.injEq] at hs; subst hs; simp [hh]
        · simp only [Option.some.injEq] at hs; subst hs; simp [enqueue, hh]
      · rename_i b bid hpc
        have hh := ih.1 (by simp [hpc])
        split at hs
        · simp only [Option.some.injEq] at hs; subst hs; simp [enqueue, hh]
        · obtain ⟨h1, h2⟩ := hsub hs
          rw [h1, hh]; simp
      · rename_i hpc
        have hh := ih.1 (by simp [hpc])
        rw [Option.bind_eq_some_iff] at hs
        obtain ⟨s1, h1, h2⟩ := hs
        have hh1 : s1.held = [] := by
          cases p with
          | none => simp only [pollStage, Option.some.injEq] at h1; subst h1; exact hh
          | some i =>
            simp only [pollStage] at h1
            split at h1
            · exact absurd h1 (by simp)
            · split at h1
              · simp only [Option.some.injEq] at h1; subst h1; exact hh
              · exact absurd h1 (by simp)
        unfold takeStage at h2
        split at h2
        · simp only [Option.some.injEq] at h2; subst h2; simp [handOut, hh1]
        · split at h2
          · exact absurd h2 (by simp)
          · split at h2
            · simp only [Option.some.injEq] at h2; subst h2; simp [handOut, hh1]
            · exact absurd h2 (by simp)
      · rename_i hpc
        have hh := ih.1 (by simp [hpc])
        split at hs
        · simp only [Option.some.injEq] at hs; subst hs; simp [hh]
        · obtain ⟨h1, h2⟩ := hsub hs
          rw [h1, hh]; simp
      · rename_i hpc
        have hh := ih.1 (by simp [hpc])
        split at hs
        · simp only [Option.some.injEq] at hs; subst hs; simp [hh]
        · exact absurd hs (by simp)

theorem submitOne_some {n wbs : Nat} {s : St α} (hi : Inv n wbs s) (hb : s.batch ≠ []) (c : Nat) :
    ∃ s', submitOne s c = some s' := by
  obtain ⟨⟨e, rest⟩, hpop⟩ := popMin_isSome (c := c) hb
  obtain ⟨hperm, _⟩ := popMin_spec hpop
  have hmem : e ∈ s.batch := hperm.mem_iff.2 (by simp)
  have hnb : e.2 ∉ s.busy := by
    intro hb
    have hplaces := hi.nd
    unfold places at hplaces
    have h4 := (List.nodup_append.1 (List.nodup_append.1 (List.nodup_append.1 hplaces).2.1).2.1).2.2
    exact h4 e.2 hb e.2 (List.mem_append_left _ (List.mem_map_of_mem hmem)) rfl
  unfold submitOne
  rw [hpop]
  simp only
  split
  · rename_i bid hr; exact absurd (hi.pend _ _ hr) hnb
  · exact ⟨_, rfl⟩

theorem done_some {n wbs : Nat} {s : St α} (hi : Inv n wbs s) {b : Nat} (hb : b ∈ s.busy) (hd : isDone s b = false)
    (keep : Bool) : ∃ s', step n wbs keep s (.done b) = some s' := by
  unfold isDone at hd
  simp only [step]
  cases hr : s.reqs b with
  | none => exact absurd hr (hi.br b hb)
  | some r =>
    obtain ⟨bid, d⟩ := r
    rw [hr] at hd
    simp only at hd
    subst hd
    exact ⟨_, rfl⟩

/-- Inside of a method something can always happen, unless all buffers are batched. -/
theorem not_stuck {n wbs : Nat} {s : St α} (hi : Inv n wbs s) (hpc : s.pc ≠ .idle)
    (hlt : wbs + s.held.length < n) (keep : Bool) :
    (∃ p c s', step n wbs keep s (.work p c) = some s') ∨ ∃ b s', step n wbs keep s (.done b) = some s' := by
  cases hp : s.pc with
  | idle => exact absurd hp hpc
  | writing b bid f =>
    left
    refine ⟨none, 0, ?_⟩
    cases f with
    | false =>
      simp only [step, work, hp]
      split <;> exact ⟨_, rfl⟩
    | true =>
      simp only [step, work, hp]
      split
      · exact ⟨_, rfl⟩
      · rename_i he
        exact submitOne_some hi (by simpa using he) 0
  | getting =>
    cases hfree : s.free.getLast? with
    | some x =>
      left
      exact ⟨none, 0, _, by simp only [step, work, hp, pollStage, Option.bind_some, takeStage, hfree]; rfl⟩
    | none =>
      have hf : s.free = [] := by simpa using hfree
      have htot := hi.tot (by simp [hp]) (by simp [hp])
      have hcur : cur s = [] := by simp [cur, hp]
      have hbl := hi.bl
      have hbusy : s.busy ≠ [] := by
        intro hb
        unfold places at htot
        rw [hf, hb, hcur] at htot
        simp at htot
        omega
      cases hbs : s.busy with
      | nil => exact absurd hbs hbusy
      | cons x rest =>
        by_cases hd : isDone s x = true
        · left
          refine ⟨none, 0, ?_⟩
          simp only [step, work, hp, pollStage, Option.bind_some, takeStage, hfree, hbs, List.getElem?_cons_zero, hd]
          exact ⟨_, rfl⟩
        · right
          have := done_some hi (b := x) (by rw [hbs]; simp) (by simpa using hd) keep
          exact ⟨x, this⟩
  | flushing =>
    left
    refine ⟨none, 0, ?_⟩
    simp only [step, work, hp]
    split
    · exact ⟨_, rfl⟩
    · rename_i he
      exact submitOne_some hi (by simpa using he) 0
  | draining =>
    by_cases hall : s.busy.all (isDone s) = true
    · left
      refine ⟨none, 0, ?_⟩
      simp only [step, work, hp, if_pos hall]
      exact ⟨_, rfl⟩
    · right
      have : ∃ b ∈ s.busy, isDone s b = false := by simpa using hall
      obtain ⟨b, hb, hd⟩ := this
      exact ⟨b, done_some hi hb hd keep⟩

def rank : Pc → Nat
  | .idle => 0
  | .getting => 1
  | .draining => 1
  | .flushing => 2
  | .writing _ _ true => 9
  | .writing _ _ false => 10

/-- Decreases with every internal step. -/
def msr (s : St α) : Nat := (s.written.length - s.transferred.length) + 2 * s.batch.length + rank s.pc

theorem submitOne_msr {s s' : St α} {c : Nat} (h : submitOne s c = some s') : msr s' < msr s := by
  unfold submitOne at h
  split at h
  · exact absurd h (by simp)
  · rename_i e rest hpop
    obtain ⟨hperm, _⟩ := popMin_spec hpop
    have h4 := hperm.length_eq
    simp only [List.length_cons] at h4
    split at h
    · exact absurd h (by simp)
    · simp only [Option.some.injEq] at h
      subst h
      simp only [msr]
      omega

theorem work_msr {n wbs : Nat} {s s' : St α} {p : Option Nat} {c : Nat} (h : work n wbs s p c = some s') :
    msr s' < msr s := by
  unfold work at h
  split at h
  · exact absurd h (by simp)
  · rename_i b bid hpc
    split at h <;> (simp only [Option.some.injEq] at h; subst h; simp [msr, hpc, rank, enqueue]; try omega)
  · rename_i b bid hpc
    split at h
    · simp only [Option.some.injEq] at h; subst h; simp [msr, hpc, rank, enqueue]; omega
    · exact submitOne_msr h
  · rename_i hpc
    rw [Option.bind_eq_some_iff] at h
    obtain ⟨s1, h1, h2⟩ := h
    have e1 : s1.written = s.written ∧ s1.transferred = s.transferred ∧ s1.batch = s.batch := by
      cases p with
      | none => simp only [pollStage, Option.some.injEq] at h1; subst h1; exact ⟨rfl, rfl, rfl⟩
      | some i =>
        simp only [pollStage] at h1
        split at h1
        · exact absurd h1 (by simp)
        · split at h1
          · simp only [Option.some.injEq] at h1; subst h1; exact ⟨rfl, rfl, rfl⟩
          · exact absurd h1 (by simp)
    have e2 : s'.written = s1.written ∧ s'.transferred = s1.transferred ∧ s'.batch = s1.batch ∧ s'.pc = .idle := by
      unfold takeStage at h2
      split at h2
      · simp only [Option.some.injEq] at h2; subst h2; exact ⟨rfl, rfl, rfl, rfl⟩
      · split at h2
        · exact absurd h2 (by simp)
        · split at h2
          · simp only [Option.some.injEq] at h2; subst h2; exact ⟨rfl, rfl, rfl, rfl⟩
          · exact absurd h2 (by simp)
    simp only [msr, e2.1, e2.2.1, e2.2.2.1, e2.2.2.2, e1.1, e1.2.1, e1.2.2, hpc, rank]
    omega
  · rename_i hpc
    split at h
    · simp only [Option.some.injEq] at h; subst h; simp [msr, hpc, rank]
    · exact submitOne_msr h
  · rename_i hpc
    split at h
    · simp only [Option.some.injEq] at h; subst h; simp [msr, hpc, rank]
    · exact absurd h (by simp)

theorem done_msr {n wbs : Nat} {s s' : St α} {b : Nat} {keep : Bool}
    (hi' : Inv n wbs s') (h : step n wbs keep s (.done b) = some s') : msr s' < msr s := by
  simp only [step] at h
  split at h
  · simp only [Option.some.injEq] at h
    have hl := hi'.log.length_eq
    subst h
    simp only [List.length_append, List.length_singleton] at hl
    simp only [msr, List.length_append, List.length_singleton]
    omega
  · exact absurd h (by simp)

end Foxxll.BufWriter
