import Verif.Spec.Timer
/-
Lemmas on timers.
-/
set_option linter.unusedSimpArgs false
namespace Foxxll.Timer

theorem snocInd {α : Type} {motive : List α → Prop} (nil : motive []) (append_singleton : ∀ l a, motive l → motive (l ++ [a])) (l : List α) : motive l := by
  rw [← List.reverse_reverse l]
  induction l.reverse with
  | nil => exact nil
  | cons a l ih => rw [List.reverse_cons]; exact append_singleton _ _ ih

theorem run_append (t : Timer) (h g : List (Nat × Op)) : run t (h ++ g) = run (run t h) g := by
  induction h generalizing t with
  | nil => rfl
  | cons x l ih => exact ih _

theorem ordered_append {h : List (Nat × Op)} {x : Nat × Op} {now : Nat} (H : Ordered (h ++ [x]) now) :
    Ordered h now ∧ x.1 ≤ now ∧ (∀ y ∈ h, y.1 ≤ x.1) ∧ Ordered h x.1 := by
  induction h with
  | nil => exact ⟨trivial, H.1, by simp, trivial⟩
  | cons y l ih =>
    obtain ⟨h1, h2, h3⟩ := H
    obtain ⟨i1, i2, i3, i4⟩ := ih h3
    have hy : y.1 ≤ x.1 := h2 x (by simp)
    refine ⟨⟨h1, fun z hz => h2 z (by simp [hz]), i1⟩, i2, ?_, ⟨hy, fun z hz => h2 z (by simp [hz]), i4⟩⟩
    intro z hz
    rw [List.mem_cons] at hz
    rcases hz with rfl | hz
    · exact hy
    · exact i3 z hz

theorem ordered_le {h : List (Nat × Op)} {now : Nat} (H : Ordered h now) : ∀ y ∈ h, y.1 ≤ now := by
  induction h with
  | nil => simp
  | cons x l ih =>
    intro y hy
    rw [List.mem_cons] at hy
    rcases hy with rfl | hy
    · exact H.1
    · exact ih H.2.2 y hy

theorem bracketed_append {h : List (Nat × Op)} {x : Nat × Op} {r : Bool} {t : Timer} (hr : t.running = r) (H : Bracketed r (h ++ [x])) :
    Bracketed r h ∧ (x.2 = .start → (run t h).running = false) ∧ (x.2 = .stop → (run t h).running = true) := by
  induction h generalizing r t with
  | nil =>
    refine ⟨trivial, fun he => ?_, fun he => ?_⟩
    · simp only [List.nil_append, Bracketed, he] at H; rw [run, hr]; exact H.1
    · simp only [List.nil_append, Bracketed, he] at H; rw [run, hr]; exact H.1
  | cons y l ih =>
    obtain ⟨u, o⟩ := y
    cases o with
    | start => obtain ⟨i1, i2, i3⟩ := ih (t := step t u .start) rfl H.2; exact ⟨⟨H.1, i1⟩, i2, i3⟩
    | stop => obtain ⟨i1, i2, i3⟩ := ih (t := step t u .stop) rfl H.2; exact ⟨⟨H.1, i1⟩, i2, i3⟩
    | reset => exact ih (t := step t u .reset) hr H
    | add d => exact ih (t := step t u (.add d)) hr H

/-- The last start or stop decides. -/
theorem runsAt_snoc (h : List (Nat × Op)) (x : Nat × Op) (t : Nat) :
    runsAt (h ++ [x]) t = if x.1 ≤ t then (match x.2 with | .start => true | .stop => false | _ => runsAt h t) else runsAt h t := by
  unfold runsAt
  rw [List.filter_append]
  by_cases hx : x.1 ≤ t
  · rw [if_pos hx]
    cases ho : x.2 <;> simp [hx, ho] <;> decide
  · rw [if_neg hx]
    simp [hx]

theorem runsAt_end (h : List (Nat × Op)) (t : Nat) (H : ∀ y ∈ h, y.1 ≤ t) : runsAt h t = (run {} h).running := by
  induction h using snocInd with
  | nil => rfl
  | append_singleton h x ih =>
    rw [runsAt_snoc, if_pos (H x (by simp)), run_append, ih (fun y hy => H y (by simp [hy]))]
    cases ho : x.2 <;> simp [run, step, ho, start, stop, reset, add]

/-- Counting over two intervals. -/
theorem count_split (p : Nat → Bool) {u now : Nat} (h : u ≤ now) :
    ((List.range now).filter p).length = ((List.range u).filter p).length + ((List.range' u (now - u)).filter p).length := by
  rw [← List.length_append, ← List.filter_append, List.range_eq_range', List.range_eq_range']
  have := List.range'_append (s := 0) (m := u) (n := now - u) (step := 1)
  simp only [Nat.one_mul, Nat.zero_add] at this
  rw [this, show u + (now - u) = now by omega]

theorem count_const {p : Nat → Bool} {b : Bool} {u n : Nat} (h : ∀ t, u ≤ t → p t = b) :
    ((List.range' u n).filter p).length = if b then n else 0 := by
  have : ∀ t ∈ List.range' u n, p t = b := fun t ht => h t (List.mem_range'_1.mp ht).1
  cases b with
  | true => rw [List.filter_eq_self.mpr this]; simp
  | false => rw [List.filter_eq_nil_iff.mpr (fun t ht => by rw [this t ht]; simp)]; rfl

theorem count_congr {p q : Nat → Bool} {u : Nat} (h : ∀ t, t < u → p t = q t) :
    ((List.range u).filter p).length = ((List.range u).filter q).length := by
  rw [List.filter_congr (fun t ht => h t (List.mem_range.mp ht))]

theorem since_snoc (h : List (Nat × Op)) (x : Nat × Op) :
    sinceReset (h ++ [x]) = if x.2 = .reset then (x.1, []) else ((sinceReset h).1, (sinceReset h).2 ++ [x]) := by
  unfold sinceReset; rw [List.foldl_append]; rfl

theorem since_le (h : List (Nat × Op)) (T : Nat) (H : ∀ y ∈ h, y.1 ≤ T) : (sinceReset h).1 ≤ T := by
  induction h using snocInd with
  | nil => exact Nat.zero_le _
  | append_singleton h x ih =>
    rw [since_snoc]
    split
    · exact H x (by simp)
    · exact ih (fun y hy => H y (by simp [hy]))

theorem added_snoc (h : List (Nat × Op)) (x : Nat × Op) : added (h ++ [x]) = added h + x.2.amount := by
  unfold added; simp

/-- The timer shows what it shall. -/
theorem read_shown {h : List (Nat × Op)} : ∀ {now : Nat}, Ordered h now → Bracketed false h → read (run {} h) now = shown h now := by
  induction h using snocInd with
  | nil =>
    intro now _ _
    have : ((List.range now).filter fun t => decide ((sinceReset []).1 ≤ t) && runsAt [] t) = [] := by
      rw [List.filter_eq_nil_iff]; intro t _; simp [runsAt]
    show (0 : Int) = _
    unfold shown; rw [this]; rfl
  | append_singleton h x ih =>
    intro now ho hb
    obtain ⟨o1, o2, o3, o4⟩ := ordered_append ho
    obtain ⟨b1, b2, b3⟩ := bracketed_append (t := {}) rfl hb
    have hi := ih o4 b1
    have hrun : run {} (h ++ [x]) = step (run {} h) x.1 x.2 := by rw [run_append]; rfl
    have hend : ∀ t, x.1 ≤ t → runsAt h t = (run {} h).running := fun t ht => runsAt_end h t (fun y hy => Nat.le_trans (o3 y hy) ht)
    have hle : (sinceReset h).1 ≤ x.1 := since_le h _ o3
    have hnow : now = x.1 + (now - x.1) := by omega
    rw [hrun]
    obtain ⟨u, o⟩ := x
    simp only at *
    -- what is shown at time u, then until now
    have key : ∀ b : Bool, o ≠ .reset → (∀ t, u ≤ t → runsAt (h ++ [(u, o)]) t = b) →
        shown (h ++ [(u, o)]) now = shown h u + (if b then ((now - u : Nat) : Int) else 0) + o.amount := by
      intro b hr hc
      unfold shown
      rw [since_snoc, if_neg hr, count_split _ o2, added_snoc]
      rw [count_congr (u := u) (q := fun t => decide ((sinceReset h).1 ≤ t) && runsAt h t)
        (fun t ht => by rw [runsAt_snoc, if_neg (show ¬ u ≤ t by omega)])]
      rw [count_const (b := b) (fun t ht => by rw [hc t ht]; simp; omega)]
      cases b <;> simp <;> omega
    cases o with
    | start =>
      have hr := b2 rfl
      rw [key true (by simp) (fun t ht => by rw [runsAt_snoc, if_pos ht])]
      rw [← hi]
      simp only [Op.amount]
      simp only [step, start, read, hr, if_true, Bool.false_eq_true, if_false]
      omega
    | stop =>
      have hr := b3 rfl
      rw [key false (by simp) (fun t ht => by rw [runsAt_snoc, if_pos ht])]
      rw [← hi]
      simp only [Op.amount]
      simp only [step, stop, read, hr, if_true, Bool.false_eq_true, if_false]
      omega
    | add d =>
      rw [key (run {} h).running (by simp) (fun t ht => by rw [runsAt_snoc, if_pos ht]; exact hend t ht)]
      rw [← hi]
      simp only [Op.amount]
      simp only [step, add, read]
      by_cases hr : (run {} h).running = true
      · simp only [hr, if_true]; omega
      · simp [hr]
    | reset =>
      unfold shown
      rw [since_snoc, if_pos rfl, count_split _ o2]
      rw [count_congr (u := u) (q := fun _ => false) (fun t ht => by simp; omega)]
      rw [count_const (b := (run {} h).running) (fun t ht => by rw [runsAt_snoc, if_pos ht]; simp [ht, hend t ht])]
      have h0 : (List.filter (fun _ : Nat => false) (List.range u)).length = 0 := by
        rw [List.filter_eq_nil_iff.mpr (by simp)]; rfl
      rw [h0]
      simp only [step, reset, read]
      by_cases hr : (run {} h).running = true
      · simp [hr, added]; omega
      · simp [hr, added]

end Foxxll.Timer
