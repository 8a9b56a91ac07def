/-
How often a request is overtaken in the request queues.
-/
import Verif.Proofs.Queues
set_option linter.unusedSimpArgs false

namespace Foxxll.Queue

/-- Those of the requests `p` that are among the requests `b`. -/
def among (b : List (Nat × Bool)) (p : List Nat) : List Nat := p.filter (fun x => (b.map (·.1)).contains x)

theorem among_nil (p : List Nat) : among [] p = [] := by
  unfold among
  rw [List.filter_eq_nil_iff]
  simp

theorem split_uniq {A B X Y : List Nat} {v : Nat} (hn : (A ++ v :: B).Nodup) (h : A ++ v :: B = X ++ v :: Y) : A = X ∧ B = Y := by
  induction A generalizing X with
  | nil =>
    cases X with
    | nil => simpa using h
    | cons x X =>
      simp only [List.nil_append, List.cons_append, List.cons.injEq] at h
      obtain ⟨rfl, h⟩ := h
      subst h
      simp at hn
  | cons a A ih =>
    cases X with
    | nil =>
      simp only [List.nil_append, List.cons_append, List.cons.injEq] at h
      obtain ⟨rfl, h⟩ := h
      simp at hn
    | cons x X =>
      simp only [List.cons_append, List.cons.injEq] at h
      simp only [List.cons_append, List.nodup_cons] at hn
      obtain ⟨rfl, h⟩ := h
      obtain ⟨h1, h2⟩ := ih hn.2 h
      exact ⟨by rw [h1], h2⟩

/-- What is started from a queue before `v` was submitted before `v`. -/
theorem order {f : Bool → Bool} {s : St} {X Y : List Nat} {a b : List (Nat × Bool)} {v r : Nat} {w w' : Bool}
    (hn : (s.sub.map (·.1)).Nodup) (h : (subs f s).filter (fun r => !s.cancelled.contains r) = X ++ r :: Y) (hv : v ∈ Y)
    (hs : s.sub = a ++ (v, w) :: b) (hw : f w = true) (hr : (r, w') ∈ s.sub) (hw' : f w' = true) : r ∉ b.map (·.1) := by
  intro hb
  have hd : ((subs f s).filter (fun r => !s.cancelled.contains r)).Nodup := (subs_nodup hn).filter _
  have hvc : v ∉ s.cancelled := by
    have : v ∈ (subs f s).filter (fun r => !s.cancelled.contains r) := by rw [h]; simp [hv]
    simpa using (List.mem_filter.1 this).2
  have hrc : r ∉ s.cancelled := by
    have : r ∈ (subs f s).filter (fun r => !s.cancelled.contains r) := by rw [h]; simp
    simpa using (List.mem_filter.1 this).2
  have hrb : (r, w') ∈ b := by
    obtain ⟨⟨x, w2⟩, h1, h2⟩ := List.mem_map.1 hb
    simp only at h2
    subst h2
    have : (x, w2) ∈ s.sub := by rw [hs]; simp [h1]
    have := uniq hn hr this
    subst this
    exact h1
  obtain ⟨b1, b2, rfl⟩ := List.append_of_mem hrb
  have he : (subs f s).filter (fun r => !s.cancelled.contains r)
      = (((((a.filter (fun p => f p.2)).map (·.1)).filter (fun r => !s.cancelled.contains r)) ++ v :: (((b1.filter (fun p => f p.2)).map (·.1)).filter (fun r => !s.cancelled.contains r)))
        ++ r :: (((b2.filter (fun p => f p.2)).map (·.1)).filter (fun r => !s.cancelled.contains r))) := by
    simp [subs, hs, List.filter_append, hw, hw', hvc, hrc]
  rw [he] at h hd
  obtain ⟨h1, h2⟩ := split_uniq hd h
  rw [h2, List.nodup_append] at hd
  exact hd.2.2 v (by simp) v (by simp [hv]) rfl

structure Over (s : St) : Prop where
  fin : ∀ a v b p q, s.sub = a ++ (v, true) :: b → s.started = p ++ v :: q → (among b p).length ≤ 1
  pend : ∀ a v b, s.sub = a ++ (v, true) :: b → v ∉ s.started → v ∉ s.cancelled →
    (among b s.started).length ≤ 1 ∧ (s.phase = false ∨ s.wpc = .putBack → among b s.started = [])

theorem over_init : Over init := by
  constructor
  · intro a v b p q h; simp [init] at h
  · intro a v b h; simp [init] at h

theorem over_same {s s' : St} (h : Over s) (e1 : s'.sub = s.sub) (e2 : ∀ v, v ∈ s.cancelled → v ∈ s'.cancelled)
    (e3 : s'.started = s.started) (e4 : s'.phase = false ∨ s'.wpc = .putBack → s.phase = false ∨ s.wpc = .putBack) : Over s' := by
  constructor
  · intro a v b p q hs ht
    rw [e1] at hs; rw [e3] at ht
    exact h.fin a v b p q hs ht
  · intro a v b hs ht hc
    rw [e1] at hs; rw [e3] at ht ⊢
    obtain ⟨h1, h2⟩ := h.pend a v b hs ht (fun hc' => hc (e2 v hc'))
    exact ⟨h1, fun h3 => h2 (e4 h3)⟩

theorem mem_wq {s : St} (ho : Ord .twoQ s) {a b : List (Nat × Bool)} {v : Nat} (hs : s.sub = a ++ (v, true) :: b)
    (ht : v ∉ s.started) (hc : v ∉ s.cancelled) : v ∈ s.wq := by
  have : v ∈ (subs (toW .twoQ) s).filter (fun r => !s.cancelled.contains r) := by
    rw [List.mem_filter]
    exact ⟨mem_subs.2 ⟨true, by rw [hs]; simp, rfl⟩, by simpa using hc⟩
  rw [ho.fw] at this
  simp [ht] at this
  exact this

theorem over_step {s s' : St} {op : Op} (ho : Ord .twoQ s) (h : Over s) (hl : Legal s op)
    (hs : step .twoQ s op = .ok s') : Over s' := by
  cases op with
  | push r w =>
    simp only [Legal] at hl
    simp only [step, push] at hs
    split at hs
    · cases hs
    split at hs
    · cases hs
    injection hs with hs
    have e1 : s'.sub = s.sub ++ [(r, w)] := by subst hs; split <;> rfl
    have e2 : s'.cancelled = s.cancelled := by subst hs; split <;> rfl
    have e3 : s'.started = s.started := by subst hs; split <;> rfl
    have e4 : s'.phase = s.phase := by subst hs; split <;> rfl
    have e5 : s'.wpc = s.wpc := by subst hs; split <;> rfl
    have hrs : r ∉ s.started := fun hr => hl.1 (ho.st r hr)
    have key : ∀ (b : List (Nat × Bool)) (p : List Nat), (∀ x ∈ p, x ∈ s.started) → among (b ++ [(r, w)]) p = among b p := by
      intro b p hp
      unfold among
      apply List.filter_congr
      intro x hx
      have : x ≠ r := fun e => hrs (e ▸ hp x hx)
      simp [this]
    constructor
    · intro a v b p q hs' ht
      rw [e1] at hs'; rw [e3] at ht
      rcases List.eq_nil_or_concat b with rfl | ⟨b', y, rfl⟩
      · simp [among_nil]
      · have hab : s.sub ++ [(r, w)] = (a ++ (v, true) :: b') ++ [y] := by rw [hs']; simp
        obtain ⟨h1, h2⟩ := List.append_inj' hab (by simp)
        simp only [List.cons.injEq, and_true] at h2
        subst h2
        rw [List.concat_eq_append, key b' p (by intro x hx; rw [ht]; simp [hx])]
        exact h.fin a v b' p q h1 ht
    · intro a v b hs' ht hc
      rw [e1] at hs'; rw [e3] at ht ⊢; rw [e2] at hc; rw [e4, e5]
      rcases List.eq_nil_or_concat b with rfl | ⟨b', y, rfl⟩
      · simp [among_nil]
      · have hab : s.sub ++ [(r, w)] = (a ++ (v, true) :: b') ++ [y] := by rw [hs']; simp
        obtain ⟨h1, h2⟩ := List.append_inj' hab (by simp)
        simp only [List.cons.injEq, and_true] at h2
        subst h2
        rw [List.concat_eq_append, key b' _ (fun _ h => h)]
        exact h.pend a v b' h1 ht hc
  | signal =>
    simp only [step] at hs
    split at hs
    · cases hs
    injection hs with hs; subst hs
    exact over_same h rfl (fun _ h => h) rfl id
  | cancel r w =>
    simp only [step, cancel] at hs
    split at hs
    · cases hs
    split at hs
    · cases hs
    split at hs
    · injection hs with hs
      have e1 : s'.sub = s.sub := by subst hs; split <;> rfl
      have e2 : s'.cancelled = s.cancelled ++ [r] := by subst hs; split <;> rfl
      have e3 : s'.started = s.started := by subst hs; split <;> rfl
      have e4 : s'.phase = s.phase := by subst hs; split <;> rfl
      have e5 : s'.wpc = s.wpc := by subst hs; split <;> rfl
      exact over_same h e1 (by rw [e2]; intro v hv; simp [hv]) e3 (by rw [e4, e5]; exact id)
    · injection hs with hs; subst hs
      exact over_same h rfl (fun _ h => h) rfl id
  | cancelTake =>
    simp only [step] at hs
    split at hs
    · cases hs
    injection hs with hs; subst hs
    exact over_same h rfl (fun _ h => h) rfl id
  | work =>
    simp only [step, work] at hs
    split at hs
    · split at hs
      · cases hs
      injection hs with hs; subst hs
      exact over_same h rfl (fun _ h => h) rfl (by simp; exact .inl)
    · rename_i hw
      split at hs
      · cases hs
      split at hs
      · rename_i hph
        simp at hph
        split at hs
        · rename_i r q hq
          injection hs with hs; subst hs
          have hfw := ho.fw
          rw [hq] at hfw
          have hm := hfw.mem ho.nodup (r := r) (by simp)
          constructor
          · intro a v b p q' hs' ht
            simp only at hs' ht
            rcases List.eq_nil_or_concat q' with rfl | ⟨q3, y, rfl⟩
            · obtain ⟨h1, h2⟩ := List.append_inj' ht (by simp)
              simp only [List.cons.injEq, and_true] at h2
              subst h1; subst h2
              exact (h.pend a r b hs' hm.2.2.1 hm.2.1).1
            · have h' : s.started ++ [r] = (p ++ v :: q3) ++ [y] := by rw [ht]; simp
              exact h.fin a v b p q3 hs' (List.append_inj' h' (by simp)).1
          · intro a v b hs' ht hc
            simp only at hs' ht hc ⊢
            simp only [List.mem_append, List.mem_singleton, not_or] at ht
            have hvq : v ∈ q := by
              have := mem_wq ho hs' ht.1 hc
              rw [hq] at this
              simpa [ht.2] using this
            obtain ⟨w', hw1, hw2⟩ := mem_subs.1 hm.1
            have hrb := order ho.nodup hfw hvq hs' rfl hw1 hw2
            have : among b (s.started ++ [r]) = among b s.started := by
              unfold among
              rw [List.filter_append]
              simp only [List.mem_map, not_exists, not_and] at hrb
              have : ([r].filter fun x => (b.map (·.1)).contains x) = [] := by
                rw [List.filter_eq_nil_iff]
                intro x hx hx'
                simp only [List.mem_singleton] at hx
                subst hx
                simp only [List.contains_iff_mem, List.mem_map] at hx'
                obtain ⟨y, hy1, hy2⟩ := hx'
                exact hrb y hy1 hy2
              rw [this, List.append_nil]
            rw [this]
            refine ⟨(h.pend a v b hs' ht.1 hc).1, ?_⟩
            simp [hph]
        · rename_i hq
          injection hs with hs; subst hs
          constructor
          · exact h.fin
          · intro a v b hs' ht hc
            have := mem_wq ho hs' ht hc
            rw [hq] at this
            cases this
      · rename_i hph
        simp at hph
        split at hs
        · rename_i r q hq
          injection hs with hs; subst hs
          have hfr := ho.fr
          rw [hq] at hfr
          have hm := hfr.mem ho.nodup (r := r) (by simp)
          have hrd : ∀ a v b, s.sub = a ++ (v, true) :: b → v ≠ r := by
            rintro a v b hs' rfl
            obtain ⟨w', hw1, hw2⟩ := mem_subs.1 hm.1
            have := uniq ho.nodup hw1 (w' := true) (by rw [hs']; simp)
            subst this
            simp [toW] at hw2
          constructor
          · intro a v b p q' hs' ht
            simp only at hs' ht
            rcases List.eq_nil_or_concat q' with rfl | ⟨q3, y, rfl⟩
            · obtain ⟨h1, h2⟩ := List.append_inj' ht (by simp)
              simp only [List.cons.injEq, and_true] at h2
              exact absurd h2.symm (hrd a v b hs')
            · have h' : s.started ++ [r] = (p ++ v :: q3) ++ [y] := by rw [ht]; simp
              exact h.fin a v b p q3 hs' (List.append_inj' h' (by simp)).1
          · intro a v b hs' ht hc
            simp only at hs' ht hc ⊢
            simp only [List.mem_append, List.mem_singleton, not_or] at ht
            have h0 := (h.pend a v b hs' ht.1 hc).2 (.inl hph)
            refine ⟨?_, by simp⟩
            unfold among at h0 ⊢
            rw [List.filter_append, h0, List.nil_append]
            exact Nat.le_trans (List.length_filter_le _ _) (by simp)
        · injection hs with hs; subst hs
          exact over_same h rfl (fun _ h => h) rfl (fun _ => .inl hph)
    · rename_i hw
      injection hs with hs; subst hs
      exact over_same h rfl (fun _ h => h) rfl (fun _ => .inr hw)
    · injection hs with hs; subst hs
      exact over_same h rfl (fun _ h => h) rfl (by simp; exact .inl)
    · injection hs with hs; subst hs
      refine over_same h rfl (fun _ h => h) rfl ?_
      simp only
      split <;> (simp; exact .inl)
    · split at hs
      · cases hs
      injection hs with hs; subst hs
      refine over_same h rfl (fun _ h => h) rfl ?_
      simp only
      split <;> (simp; exact .inl)
    · injection hs with hs; subst hs
      exact over_same h rfl (fun _ h => h) rfl (by simp; exact .inl)
    · injection hs with hs; subst hs
      exact over_same h rfl (fun _ h => h) rfl (by simp; exact .inl)
    · cases hs
  | stopSet =>
    simp only [step] at hs
    split at hs
    · split at hs
      · injection hs with hs; subst hs
        exact over_same h rfl (fun _ h => h) rfl id
      · cases hs
    · cases hs
  | stopSignal =>
    simp only [step] at hs
    split at hs
    · injection hs with hs; subst hs
      exact over_same h rfl (fun _ h => h) rfl id
    · cases hs
  | join =>
    simp only [step] at hs
    split at hs
    · split at hs
      · injection hs with hs; subst hs
        exact over_same h rfl (fun _ h => h) rfl id
      · cases hs
    · cases hs

theorem reach_over {P : St → Op → Prop} {s : St} (h : Reach .twoQ P s) : Over s := by
  induction h with
  | start => exact over_init
  | next op h hl _ hs ih => exact over_step (reach_ord h) ih hl hs

/-! ### Starvation of a read -/

/-- A read is queued; writes 1 to n are served, write n + 1 is being served. -/
def hungry (n : Nat) : St :=
  { init with rq := [0], sem := 1, wpc := .serving (n + 1), sub := (0, false) :: (List.range' 1 (n + 1)).map (fun i => (i, true)),
              started := List.range' 1 (n + 1), served := List.range' 1 n }

theorem hungry_next {P : St → Op → Prop} {n : Nat} (hP : ∀ s op, (∀ r w, op ≠ .cancel r w) → P s op) (h : Reach .twoQ P (hungry n)) :
    Reach .twoQ P (hungry (n + 1)) := by
  have h1 := Reach.next (.push (n + 2) true) h (by
    refine ⟨?_, rfl⟩
    simp only [hungry, List.map_cons, List.map_map, List.mem_cons, not_or]
    refine ⟨by omega, ?_⟩
    intro hm
    obtain ⟨i, hi, hi'⟩ := List.mem_map.1 hm
    simp only [List.mem_range', Function.comp] at hi hi'
    obtain ⟨j, hj, rfl⟩ := hi
    omega) (hP _ _ (by simp)) rfl
  have h2 := Reach.next .signal h1 trivial (hP _ _ (by simp)) rfl
  have h3 := Reach.next .work h2 trivial (hP _ _ (by simp)) rfl
  have h4 := Reach.next .work h3 trivial (hP _ _ (by simp)) rfl
  have h5 := Reach.next .work h4 trivial (hP _ _ (by simp)) rfl
  have h6 := Reach.next .work h5 trivial (hP _ _ (by simp)) rfl
  have e : ∀ k, List.range' 1 (k + 1) = List.range' 1 k ++ [k + 1] := by
    intro k
    rw [List.range'_concat]
    simp [Nat.add_comm]
  simp only [hungry]
  rw [e (n + 1), List.map_append]
  simp only [hungry] at h6
  rw [e n] at h6 ⊢
  exact h6

theorem hungry_reach {P : St → Op → Prop} (hP : ∀ s op, (∀ r w, op ≠ .cancel r w) → P s op) (n : Nat) : Reach .twoQ P (hungry n) := by
  induction n with
  | zero =>
    have h1 := Reach.next (k := .twoQ) (P := P) (.push 0 false) .start (by simp [Legal, init]) (hP _ _ (by simp)) rfl
    have h2 := Reach.next .signal h1 trivial (hP _ _ (by simp)) rfl
    have h3 := Reach.next (.push 1 true) h2 ⟨by decide, rfl⟩ (hP _ _ (by simp)) rfl
    have h4 := Reach.next .signal h3 trivial (hP _ _ (by simp)) rfl
    have h5 := Reach.next .work h4 trivial (hP _ _ (by simp)) rfl
    exact Reach.next .work h5 trivial (hP _ _ (by simp)) rfl
  | succ n ih => exact hungry_next hP ih

end Foxxll.Queue
