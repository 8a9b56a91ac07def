import Verif.Proofs.SwapFail
import Verif.Proofs.BlockSchedulerCount
import Verif.Proofs.BlockSchedulerAux
/-
Auxiliary lemmas for the theorems of `Verif.Props.SwapFail`: executions for the examples, calls that do not throw, and the number of
internal blocks.
-/
namespace Foxxll.SwapFail
open Foxxll.Swap

variable {D : Type}

/-! ### Executions -/

/-- A call, or a request in flight that is served. -/
inductive Act (D : Type)
  | op (o : Op D)
  | late (i : Nat)

/-- Calls executed for a client that takes calls that throw for not made; the result of a call that throws is `none`. -/
def playT (E : Env D) (s : FSt D) (a : Abs D) : List (Act D) → Option (FSt D × Abs D × List (Option (Res D)))
  | [] => some (s, a, [])
  | .op o :: l =>
    if Allowed a o then
      match step E s o with
      | .ub => none
      | .ok r s' => (playT E s' (a.next o r) l).map fun x => (x.1, x.2.1, some r :: x.2.2)
      | .throws _ s' => (playT E s' a l).map fun x => (x.1, x.2.1, none :: x.2.2)
    else none
  | .late i :: l =>
    match lateAt E s i with
    | none => none
    | some s' => playT E s' a l

theorem playT_trust {E : Env D} (l : List (Act D)) : ∀ {s : FSt D} {a : Abs D} {x}, Trust E s a → playT E s a l = some x → Trust E x.1 x.2.1 := by
  induction l with
  | nil => intro s a x h hp; cases hp; exact h
  | cons c l ih =>
    intro s a x h hp
    cases c with
    | op o =>
      simp only [playT] at hp
      split at hp
      · rename_i ha
        split at hp
        · cases hp
        · rename_i r s' hs
          simp only [Option.map_eq_some_iff] at hp
          obtain ⟨y, h1, h2⟩ := hp
          cases h2
          have := ih (Trust.step o h ha hs) h1
          exact this
        · rename_i hit s' hs
          simp only [Option.map_eq_some_iff] at hp
          obtain ⟨y, h1, h2⟩ := hp
          cases h2
          have := ih (Trust.throws o h ha hs) h1
          exact this
      · cases hp
    | late i =>
      simp only [playT] at hp
      split at hp
      · cases hp
      · rename_i s' hs
        exact ih (Trust.late i h hs) hp

/-- The same for a client that knows which blocks were hit. -/
def playF (E : Env D) (s : FSt D) (a : FAbs D) : List (Act D) → Option (FSt D × FAbs D × List (Option (Res D)))
  | [] => some (s, a, [])
  | .op o :: l =>
    if Allowed a.toAbs o then
      match step E s o with
      | .ub => none
      | .ok r s' => (playF E s' (a.next o r) l).map fun x => (x.1, x.2.1, some r :: x.2.2)
      | .throws hit s' => (playF E s' (a.lose hit) l).map fun x => (x.1, x.2.1, none :: x.2.2)
    else none
  | .late i :: l =>
    match lateAt E s i with
    | none => none
    | some s' => playF E s' a l

theorem playF_run {E : Env D} (l : List (Act D)) : ∀ {s : FSt D} {a : FAbs D} {x}, Run E s a → playF E s a l = some x → Run E x.1 x.2.1 := by
  induction l with
  | nil => intro s a x h hp; cases hp; exact h
  | cons c l ih =>
    intro s a x h hp
    cases c with
    | op o =>
      simp only [playF] at hp
      split at hp
      · rename_i ha
        split at hp
        · cases hp
        · rename_i r s' hs
          simp only [Option.map_eq_some_iff] at hp
          obtain ⟨y, h1, h2⟩ := hp
          cases h2
          have := ih (Run.step o h ha hs) h1
          exact this
        · rename_i hit s' hs
          simp only [Option.map_eq_some_iff] at hp
          obtain ⟨y, h1, h2⟩ := hp
          cases h2
          have := ih (Run.throws o h ha hs) h1
          exact this
      · cases hp
    | late i =>
      simp only [playF] at hp
      split at hp
      · cases hp
      · rename_i s' hs
        exact ih (Run.late i h hs) hp

/-- An environment where attempt `bad` (if a request) fails, leaving 9; the other failures are given. -/
def exF (bad : Nat) (space mem : Nat → Bool) : Env Nat :=
  { exE with ans := fun k => if k = bad then .fail 9 else .ok, over := fun _ => false, space := space, mem := mem }

theorem exF_fresh (bad : Nat) (space mem : Nat → Bool) : ∀ l, (exF bad space mem).pick l ∉ l := exE_fresh

/-! ### Without failures of requests and with space on the disks -/

/-- Requests succeed, and there is space on the disks. -/
structure Quiet (E : Env D) : Prop where
  ans : ∀ k, E.ans k = .ok
  space : ∀ k, E.space k = true

theorem startClean_nt {E : Env D} (hq : Quiet E) (s : FSt D) (id : Nat) (hit s1) : startClean E s id ≠ .throws hit s1 := by
  unfold startClean needExt
  rw [hq.space]
  cases (s.st.blocks id).ext <;> simp [R.bind]

theorem writeSync_nt {E : Env D} (hq : Quiet E) (s : FSt D) (id p e : Nat) (hit s1) : writeSync E s id p e ≠ .throws hit s1 := by
  simp [writeSync, hq.ans]

theorem clean_nt {E : Env D} (hq : Quiet E) (s : FSt D) (id : Nat) (hit s1) : clean E s id ≠ .throws hit s1 := by
  unfold clean
  split
  · cases h : startClean E s id with
    | ok e s2 =>
      simp only [R.bind]
      split
      · simp
      · exact writeSync_nt hq _ _ _ _ _ _
    | throws hit2 s2 => exact absurd h (startClean_nt hq _ _ _ _)
    | ub => simp [R.bind]
  · simp

theorem detach_nt {E : Env D} (hq : Quiet E) (s : FSt D) (id : Nat) (hit s1) : detach E s id ≠ .throws hit s1 := by
  unfold detach
  split
  · cases h : clean E s id with
    | ok e s2 =>
      simp only [R.bind, takeInt]
      split <;> simp
    | throws hit2 s2 => exact absurd h (clean_nt hq _ _ _ _)
    | ub => simp [R.bind]
  · simp

theorem extract_nt {E : Env D} (hq : Quiet E) (s : FSt D) (id : Nat) (hit s1) : extract E s id ≠ .throws hit s1 := by
  unfold extract
  split
  · simp
  · simp only
    split
    · rename_i hi
      cases h : detach E (if (s.st.blocks id).isEvictable then { s with st := { s.st with evict := eraseEvict s.st.evict id } } else s) id with
      | ok e s2 => simp [R.bind]
      | throws hit2 s2 => exact absurd h (detach_nt hq _ _ _ _)
      | ub => simp [R.bind]
    · simp [R.bind]

theorem flushOne_nt {E : Env D} (hq : Quiet E) (s : FSt D) (id : Nat) (l) (hit s1) : flushOne E s id l ≠ .throws hit s1 := by
  unfold flushOne
  split
  · split
    · simp
    · rename_i h; exact absurd h (startClean_nt hq _ _ _ _)
    · split
      · simp
      · split
        · simp
        · rename_i h; exact absurd h (detach_nt hq _ _ _ _)
        · simp
  · split
    · simp
    · rename_i h; exact absurd h (detach_nt hq _ _ _ _)
    · simp

theorem flushLoop_nt {E : Env D} (hq : Quiet E) (n : Nat) : ∀ (s : FSt D) (l) (hit s1), flushLoop E n s l ≠ .throws hit s1 := by
  induction n with
  | zero => intro s l hit s1; simp [flushLoop]
  | succ n ih =>
    intro s l hit s1
    simp only [flushLoop]
    split
    · simp
    · rename_i x rest _
      cases h : flushOne E { s with st := { s.st with evict := rest } } x.2 l with
      | ok l1 s2 => exact ih _ _ _ _
      | throws hit2 s2 => exact absurd h (flushOne_nt hq _ _ _ _ _)
      | ub => simp [R.bind]

theorem flushWait_nt {E : Env D} (hq : Quiet E) (l : List Made) : ∀ (s : FSt D) (hit s1), flushWait E l s ≠ .throws hit s1 := by
  induction l with
  | nil => intro s hit s1; simp [flushWait]
  | cons m rest ih =>
    intro s hit s1
    simp only [flushWait]
    split
    · exact ih _ _ _
    · rename_i h; exact absurd h (writeSync_nt hq _ _ _ _ _ _)
    · simp

theorem flush_nt {E : Env D} (hq : Quiet E) (s : FSt D) (hit s1) : flush E s ≠ .throws hit s1 := by
  unfold flush
  cases h : flushLoop E s.st.evict.length s [] with
  | ok l s2 => exact flushWait_nt hq _ _ _ _
  | throws hit2 s2 => exact absurd h (flushLoop_nt hq _ _ _ _ _)
  | ub => simp [R.bind]

theorem release_nt {E : Env D} (hq : Quiet E) (s : FSt D) (id : Nat) (dirty pr) (hit s1) : release E s id dirty pr ≠ .throws hit s1 := by
  unfold release
  split
  · simp
  · simp only
    split
    · split
      · simp
      · split
        · simp
        · cases h : detach E { s with st := s.st.set id { s.st.blocks id with dirty := dirty || (s.st.blocks id).dirty, refs := (s.st.blocks id).refs - 1 } } id with
          | ok e s2 => simp [R.bind]
          | throws hit2 s2 => exact absurd h (detach_nt hq _ _ _ _)
          | ub => simp [R.bind]
    · simp

theorem getFree_nt {E : Env D} (hq : Quiet E) (s : FSt D) (hit s1) (h : getFree E s = .throws hit s1) : hit = [] := by
  unfold getFree at h
  cases hg : getFreeBs E s with
  | ok o s2 =>
    rw [hg] at h
    simp only [R.bind] at h
    split at h
    · cases h
    · split at h
      · cases h
      · exact absurd h (detach_nt hq _ _ _ _)
  | throws hit2 s2 =>
    rw [hg] at h
    simp only [R.bind, R.throws.injEq] at h
    unfold getFreeBs at hg
    split at hg
    · cases hg
    · split at hg
      · split at hg
        · cases hg
        · simp only [R.throws.injEq] at hg; exact h.1.symm.trans hg.1.symm
      · cases hg
  | ub => rw [hg] at h; cases h

theorem acquire_nt {E : Env D} (hq : Quiet E) (s : FSt D) (id : Nat) (u) (hit s1) (h : acquire E s id u = .throws hit s1) : hit = [] := by
  unfold acquire at h
  split at h
  · cases h
  · split at h
    · cases h
    · split at h
      · cases hg : getFree E s with
        | ok p s2 =>
          rw [hg] at h
          simp only [R.bind] at h
          split at h
          · cases h
          · split at h
            · cases h
            · simp [readSync, hq.ans] at h
        | throws hit2 s2 =>
          rw [hg] at h
          simp only [R.bind, R.throws.injEq] at h
          rw [← h.1]; exact getFree_nt hq _ _ _ hg
        | ub => rw [hg] at h; cases h
      · cases hg : getFree E s with
        | ok p s2 =>
          rw [hg] at h
          simp only [R.bind] at h
          split at h <;> cases h
        | throws hit2 s2 =>
          rw [hg] at h
          simp only [R.bind, R.throws.injEq] at h
          rw [← h.1]; exact getFree_nt hq _ _ _ hg
        | ub => rw [hg] at h; cases h

/-- Only `acquire` can throw, for want of memory. -/
theorem step_nt {E : Env D} (hq : Quiet E) {s s1 : FSt D} {op : Op D} {hit} (h : step E s op = .throws hit s1) : hit = [] ∧ ∃ id u, op = .acquire id u := by
  have hl : ∀ o : Option (St D), lift s o ≠ .throws hit s1 := by intro o; cases o <;> simp [lift]
  have hmap : ∀ {α β : Type} (r : R D α) (f : α → FSt D → β), r.map f = .throws hit s1 → r = .throws hit s1 := by
    intro α β r f hr
    cases r <;> simp [R.map, R.bind] at hr ⊢ <;> exact hr
  cases op with
  | acquire id u => exact ⟨acquire_nt hq _ _ _ _ _ (hmap _ _ h), id, u, rfl⟩
  | write id d => exact absurd (hmap _ _ h) (hl _)
  | release id dirty pr => exact absurd (hmap _ _ h) (release_nt hq _ _ _ _ _ _)
  | deinit id => exact absurd (hmap _ _ h) (hl _)
  | init id e => exact absurd (hmap _ _ h) (hl _)
  | extract id => exact absurd (hmap _ _ h) (extract_nt hq _ _ _ _)
  | flush => exact absurd (hmap _ _ h) (flush_nt hq _ _ _)
  | alloc => simp [step] at h
  | free id => exact absurd (hmap _ _ h) (hl _)
  | client d => simp [step] at h
  | retag m l => simp only [step] at h; split at h <;> cases h

/-- Nothing is lost. -/
structure Clear (s : FSt D) (a : FAbs D) : Prop where
  pend : s.pend = []
  lost : ∀ i, a.lost i = false
  held : ∀ e, a.lostHeld e = false

theorem clear_next {s : FSt D} {a : FAbs D} (h : Clear s a) (op : Op D) (r : Res D) {s' : FSt D} (hf : Fewer s s') : Clear s' (a.next op r) := by
  have hp : s'.pend = [] := by
    cases hp : s'.pend with
    | nil => rfl
    | cons x l =>
      have := hf x (by rw [hp]; exact List.mem_cons_self)
      rw [h.pend] at this; cases this
  have hu : ∀ (f : Nat → Bool) j, (∀ i, f i = false) → ∀ i, upd f j false i = false := by
    intro f j hf i
    by_cases e : i = j
    · subst e; simp
    · rw [upd_other _ _ e]; exact hf i
  unfold FAbs.next
  refine ⟨hp, fun i => ?_, fun i => ?_⟩
  · split <;> simp only [h.held, hu _ _ h.lost, h.lost]
  · split <;> simp only [h.lost, hu _ _ h.held, h.held]

theorem run_clear {E : Env D} (hE : ∀ l, E.pick l ∉ l) {dflt : D} (hf : ∀ d, E.fill d = dflt) (hq : Quiet E) {s : FSt D} {a : FAbs D} (h : Run E s a) : Clear s a := by
  induction h with
  | start memory size mem disk => exact ⟨rfl, fun _ => rfl, fun _ => rfl⟩
  | step op hr ha hs ih =>
    rcases step_out E hE hf (run_finv E hE hf hr) op ha (step_lt (by rw [hs]; simp)) with ⟨r, s1, g, _, _, g1⟩ | ⟨hit, s1, g, _, _⟩ | ⟨id, u, _, g⟩ | ⟨m, l, _, g⟩ <;> rw [hs] at g <;> cases g
    exact clear_next ih op _ g1
  | throws op hr ha hs ih =>
    obtain ⟨e1, id, u, rfl⟩ := step_nt hq hs
    rcases step_out E hE hf (run_finv E hE hf hr) _ ha (step_lt (by rw [hs]; simp)) with ⟨r, s1, g, _, _, g1⟩ | ⟨hit, s1, g, _, g1⟩ | ⟨id, u, _, g⟩ | ⟨m, l, _, g⟩ <;> rw [hs] at g <;> cases g
    subst e1
    rw [lose_nil]
    rcases g1 with g1 | g1
    · cases g1
    · have := clear_next ih (.flush) .unit g1
      exact ⟨this.pend, ih.lost, ih.held⟩
  | late i _ hs ih =>
    rw [lateAt, ih.pend] at hs
    cases hs

/-! ### The number of internal blocks -/

/-- All internal blocks are either allocated or can still be. -/
def Tot (s : FSt D) : Prop := s.st.next + s.st.remaining = s.st.max

/-- A property of the state after a call, whether or not it throws. -/
def R.All {α : Type} (P : FSt D → Prop) : R D α → Prop
  | .ok _ s => P s
  | .throws _ s => P s
  | .ub => True

theorem R.All.bind {α β : Type} {P : FSt D → Prop} {r : R D α} {f : α → FSt D → R D β} (h : r.All P) (hf : ∀ a s, P s → (f a s).All P) : (r.bind f).All P := by
  cases r with
  | ok a s => exact hf a s h
  | throws hit s => exact h
  | ub => trivial

theorem late_tot (E : Env D) {s : FSt D} (h : Tot s) (x) : Tot (late E s x) := by
  unfold late; split <;> exact h

theorem settle_tot (E : Env D) {s : FSt D} (h : Tot s) (e : Nat) : Tot (settle E s e) := by
  obtain ⟨dk, k', h1, _⟩ := settle_form E s e
  rw [h1]; exact h

theorem writeSync_tot (E : Env D) {s : FSt D} (h : Tot s) (id p e : Nat) : (writeSync E s id p e).All Tot := by
  have := settle_tot E h e
  unfold writeSync
  simp only
  split <;> exact this

theorem startClean_tot (E : Env D) {s : FSt D} (h : Tot s) (id : Nat) : (startClean E s id).All Tot := by
  refine R.All.bind ?_ (fun e s1 h1 => h1)
  unfold needExt
  split
  · exact h
  · split <;> exact h

theorem detach_tot (E : Env D) {s : FSt D} (h : Tot s) (id : Nat) : (detach E s id).All Tot := by
  unfold detach
  split
  · refine R.All.bind ?_ (fun _ s1 h1 => ?_)
    · unfold clean
      split
      · refine R.All.bind (startClean_tot E h id) (fun e s1 h1 => ?_)
        split
        · trivial
        · exact writeSync_tot E h1 _ _ _
      · exact h
    · unfold takeInt
      split
      · trivial
      · exact h1
  · trivial

theorem getFree_tot (E : Env D) (hm : ∀ k, E.mem k = true) {s : FSt D} (h : Tot s) : (getFree E s).All Tot := by
  refine R.All.bind ?_ (fun o s1 h1 => ?_)
  · unfold getFreeBs
    split
    · rename_i x l hx
      simp only [R.All, Swap.getFreeBs, hx]
      exact h
    · rename_i hx
      split
      · rename_i hr
        rw [hm]
        have : min allocAtOnce s.st.remaining ≤ s.st.remaining := Nat.min_le_right _ _
        simp only [Tot] at h
        simp only [R.All, Tot, Swap.getFreeBs, hx, hr, if_true]
        omega
      · exact h
  · split
    · exact h1
    · split
      · trivial
      · exact detach_tot E (by exact h1) _

theorem acquire_tot (E : Env D) (hm : ∀ k, E.mem k = true) {s : FSt D} (h : Tot s) (id : Nat) (u : Bool) : (acquire E s id u).All Tot := by
  unfold acquire
  split
  · trivial
  · split
    · simp only
      split <;> exact h
    · split
      · refine R.All.bind (getFree_tot E hm h) (fun p s1 h1 => ?_)
        simp only
        split
        · exact h1
        · split
          · trivial
          · refine R.All.bind ?_ (fun _ s2 h2 => h2)
            unfold readSync
            simp only
            have : ∀ t : FSt D, Tot t → ∀ (c : Bool) e, Tot (if c then t else settle E t e) := by
              intro t ht c e
              cases c
              · exact settle_tot E ht e
              · exact ht
            split <;> exact this _ (by exact h1) _ _
      · refine R.All.bind (getFree_tot E hm h) (fun p s1 h1 => ?_)
        simp only
        split <;> exact h1

theorem release_tot (E : Env D) {s : FSt D} (h : Tot s) (id : Nat) (dirty pr) : (release E s id dirty pr).All Tot := by
  unfold release
  split
  · trivial
  · simp only
    split
    · split
      · exact h
      · split
        · exact h
        · exact R.All.bind (detach_tot E (by exact h) _) (fun p s1 h1 => h1)
    · trivial

theorem extract_tot (E : Env D) {s : FSt D} (h : Tot s) (id : Nat) : (extract E s id).All Tot := by
  unfold extract
  split
  · trivial
  · simp only
    have h1 : Tot (if (s.st.blocks id).isEvictable then { s with st := { s.st with evict := eraseEvict s.st.evict id } } else s) := by split <;> exact h
    refine R.All.bind ?_ (fun _ s1 h1 => h1)
    split
    · exact R.All.bind (detach_tot E h1 _) (fun p s1 h1 => h1)
    · exact h1

theorem flushOne_tot (E : Env D) {s : FSt D} (h : Tot s) (id : Nat) (l) : (flushOne E s id l).All Tot := by
  have key : ∀ {s1 : FSt D}, Tot s1 → ∀ l l2, (match detach E s1 id with
        | .ok q s2 => (.ok l (giveBack s2 q) : R D (List Made))
        | .throws hit s2 => abandon s2 hit l2
        | .ub => .ub).All Tot := by
    intro s1 h1 l l2
    have := detach_tot E h1 id
    cases hd : detach E s1 id with
    | ok q s2 => rw [hd] at this; exact this
    | throws hit s2 => rw [hd] at this; exact this
    | ub => trivial
  unfold flushOne
  split
  · have := startClean_tot E h id
    cases hd : startClean E s id with
    | ok e s1 =>
      rw [hd] at this
      simp only
      split
      · trivial
      · exact key this _ _
    | throws hit s2 => rw [hd] at this; exact this
    | ub => trivial
  · exact key h _ _

theorem flushLoop_tot (E : Env D) (n : Nat) : ∀ {s : FSt D}, Tot s → ∀ l, (flushLoop E n s l).All Tot := by
  induction n with
  | zero => intro s h l; exact h
  | succ n ih =>
    intro s h l
    simp only [flushLoop]
    split
    · exact h
    · exact R.All.bind (flushOne_tot E (by exact h) _ _) (fun l1 s1 h1 => ih h1 _)

theorem flushWait_tot (E : Env D) (l : List Made) : ∀ {s : FSt D}, Tot s → (flushWait E l s).All Tot := by
  induction l with
  | nil => intro s h; exact h
  | cons m rest ih =>
    intro s h
    have := writeSync_tot E h m.id m.p m.e
    simp only [flushWait]
    cases hd : writeSync E s m.id m.p m.e with
    | ok q s2 => rw [hd] at this; exact ih this
    | throws hit s2 => rw [hd] at this; exact this
    | ub => trivial

theorem lift_tot {s : FSt D} (o : Option (St D)) (h : ∀ t, o = some t → t.next + t.remaining = t.max) : (lift s o).All Tot := by
  cases o with
  | none => trivial
  | some t => exact h t rfl

theorem deinit_tot {s t : St D} {id : Nat} (h : Swap.deinit s id = some t) : t.next = s.next ∧ t.remaining = s.remaining ∧ t.max = s.max := by
  unfold Swap.deinit at h
  split at h
  · cases h
  · simp only at h
    split at h
    · cases h
    · split at h <;> cases h <;> split <;> exact ⟨rfl, rfl, rfl⟩

theorem step_tot (E : Env D) (hm : ∀ k, E.mem k = true) {s : FSt D} (h : Tot s) (op : Op D) : (step E s op).All Tot := by
  cases op with
  | acquire id u => exact R.All.bind (acquire_tot E hm h id u) (fun _ _ h => h)
  | write id d =>
    refine R.All.bind (lift_tot _ fun t ht => ?_) (fun _ _ h => h)
    unfold Swap.write at ht
    split at ht
    · cases ht
    · split at ht
      · simp only [Option.map_eq_some_iff] at ht
        obtain ⟨p, _, rfl⟩ := ht
        exact h
      · cases ht
  | release id dirty pr => exact R.All.bind (release_tot E h id dirty pr) (fun _ _ h => h)
  | deinit id =>
    refine R.All.bind (lift_tot _ fun t ht => ?_) (fun _ _ h => h)
    obtain ⟨e1, e2, e3⟩ := deinit_tot ht
    rw [e1, e2, e3]; exact h
  | init id e =>
    refine R.All.bind (lift_tot _ fun t ht => ?_) (fun _ _ h => h)
    unfold Swap.initialize_ at ht
    split at ht
    · cases ht
    · simp only at ht
      split at ht
      · cases ht
      · cases ht; exact h
  | extract id => exact R.All.bind (extract_tot E h id) (fun _ _ h => h)
  | flush => exact R.All.bind (R.All.bind (flushLoop_tot E _ h _) (fun l s1 h1 => flushWait_tot E _ h1)) (fun _ _ h => h)
  | alloc =>
    simp only [step, R.All, Tot, Swap.alloc]
    split <;> exact h
  | free id =>
    refine R.All.bind (lift_tot _ fun t ht => ?_) (fun _ _ h => h)
    unfold Swap.freeBlock at ht
    simp only [Option.map_eq_some_iff] at ht
    obtain ⟨t', ht, rfl⟩ := ht
    obtain ⟨e1, e2, e3⟩ := deinit_tot ht
    show t'.next + t'.remaining = t'.max
    rw [e1, e2, e3]; exact h
  | client d => exact settle_tot E h _
  | retag m l =>
    simp only [step]
    split
    · exact h
    · trivial

theorem run_tot {E : Env D} (hm : ∀ k, E.mem k = true) {s : FSt D} {a : FAbs D} (h : Run E s a) : Tot s := by
  induction h with
  | start memory size mem disk =>
    have := (init_inv (mem 0) memory size mem disk).core.total
    exact this
  | step op _ _ hs ih => have := step_tot E hm ih op; rw [hs] at this; exact this
  | throws op _ _ hs ih => have := step_tot E hm ih op; rw [hs] at this; exact this
  | late i _ hs ih =>
    unfold lateAt at hs
    split at hs
    · cases hs
    · split at hs
      · cases hs; exact late_tot E (by exact ih) _
      · cases hs

theorem pend_at (pre post : List (Nat × Nat)) (x : Nat × Nat) : (pre ++ x :: post)[pre.length]? = some x ∧
    (pre ++ x :: post).take pre.length = pre ∧ (pre ++ x :: post).eraseIdx pre.length = pre ++ post := by
  refine ⟨by simp, by simp, ?_⟩
  rw [List.eraseIdx_append_of_length_le (Nat.le_refl _)]
  simp

end Foxxll.SwapFail
