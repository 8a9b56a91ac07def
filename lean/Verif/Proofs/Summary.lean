import Verif.Spec.Summary

namespace Foxxll.Summary
open Foxxll.Iostats (FileData)

/-! ### Sorted lists -/

theorem countP_high {l : List Rat} {p : Rat → Bool} {k : Nat} (h : ∀ i (hi : i < l.length), k ≤ i → p l[i] = false) : l.countP p ≤ k := by
  rw [← List.take_append_drop k l, List.countP_append]
  have h1 : (l.take k).countP p ≤ k := Nat.le_trans List.countP_le_length (by rw [List.length_take]; omega)
  have h2 : (l.drop k).countP p = 0 := by
    rw [List.countP_eq_zero]
    intro x hx
    obtain ⟨i, hi, rfl⟩ := List.getElem_of_mem hx
    rw [List.getElem_drop, h _ (by rw [List.length_drop] at hi; omega) (by omega)]
    simp
  omega

theorem countP_low {l : List Rat} {p : Rat → Bool} {k : Nat} (h : ∀ i (hi : i < l.length), i < k → p l[i] = false) : l.countP p ≤ l.length - k := by
  have e := List.take_append_drop k l
  have h0 : l.countP p = (l.take k).countP p + (l.drop k).countP p := by rw [← List.countP_append, e]
  have h1 : (l.drop k).countP p ≤ l.length - k := Nat.le_trans List.countP_le_length (by rw [List.length_drop]; omega)
  have h2 : (l.take k).countP p = 0 := by
    rw [List.countP_eq_zero]
    intro x hx
    obtain ⟨i, hi, rfl⟩ := List.getElem_of_mem hx
    rw [List.length_take] at hi
    rw [List.getElem_take, h _ (by omega) (by omega)]
    simp
  omega

theorem sorted_le {l : List Rat} (h : l.Pairwise (· ≤ ·)) {i j : Nat} (hij : i ≤ j) (hj : j < l.length) : l[i]'(by omega) ≤ l[j] := by
  rcases Nat.lt_or_ge i j with h1 | h1
  · exact List.pairwise_iff_getElem.1 h i j (by omega) hj h1
  · have : i = j := by omega
    subst this; exact Rat.le_refl

theorem lower_middle {l : List Rat} (h : l.Pairwise (· ≤ ·)) {j : Nat} (hj : j < l.length) (h1 : 2 * j < l.length) (h2 : l.length ≤ 2 * (j + 1)) :
    2 * l.countP (fun x => decide (x < l[j])) < l.length ∧ 2 * l.countP (fun x => decide (l[j] < x)) ≤ l.length := by
  constructor
  · have := countP_high (p := fun x => decide (x < l[j])) (k := j) (l := l) fun i hi hk => by
      simpa using Rat.not_lt.2 (sorted_le h hk hi)
    omega
  · have := countP_low (p := fun x => decide (l[j] < x)) (k := j + 1) (l := l) fun i hi hk => by
      simpa using Rat.not_lt.2 (sorted_le h (by omega) hj)
    omega

theorem upper_middle {l : List Rat} (h : l.Pairwise (· ≤ ·)) {j : Nat} (hj : j < l.length) (h1 : l.length < 2 * (j + 1)) (h2 : 2 * j ≤ l.length) :
    2 * l.countP (fun x => decide (l[j] < x)) < l.length ∧ 2 * l.countP (fun x => decide (x < l[j])) ≤ l.length := by
  constructor
  · have := countP_low (p := fun x => decide (l[j] < x)) (k := j + 1) (l := l) fun i hi hk => by
      simpa using Rat.not_lt.2 (sorted_le h (by omega) hj)
    omega
  · have := countP_high (p := fun x => decide (x < l[j])) (k := j) (l := l) fun i hi hk => by
      simpa using Rat.not_lt.2 (sorted_le h hk hi)
    omega

/-- The middle of an ascending list. -/
theorem middle {l : List Rat} (h : l.Pairwise (· ≤ ·)) (h0 : l ≠ []) (d : Rat) :
    Median l (if l.length % 2 ≠ 0 then l.getD (l.length / 2) d else (l.getD (l.length / 2 - 1) d + l.getD (l.length / 2) d) / 2) := by
  have hl : 0 < l.length := List.length_pos_iff.2 h0
  have hm : l.length / 2 < l.length := by omega
  split
  · rename_i ho
    rw [List.getD_eq_getElem?_getD, List.getElem?_eq_getElem hm, Option.getD_some]
    exact ⟨_, List.getElem_mem hm, _, List.getElem_mem hm, by grind, lower_middle h hm (by omega) (by omega), upper_middle h hm (by omega) (by omega)⟩
  · rename_i ho
    have hm1 : l.length / 2 - 1 < l.length := by omega
    rw [List.getD_eq_getElem?_getD, List.getD_eq_getElem?_getD, List.getElem?_eq_getElem hm, List.getElem?_eq_getElem hm1, Option.getD_some, Option.getD_some]
    exact ⟨_, List.getElem_mem hm1, _, List.getElem_mem hm, by grind, lower_middle h hm1 (by omega) (by omega), upper_middle h hm (by omega) (by omega)⟩

/-! ### Summaries -/

theorem perm_sum {l l' : List Rat} (h : l.Perm l') : l.sum = l'.sum := by
  induction h with
  | nil => rfl
  | cons x _ ih => rw [List.sum_cons, List.sum_cons, ih]
  | swap x y l => rw [List.sum_cons, List.sum_cons, List.sum_cons, List.sum_cons]; grind
  | trans _ _ h1 h2 => rw [h1, h2]

theorem Good.perm {l l' : List Rat} {t mn mx av md : Rat} (h : Good l t mn mx av md) (p : l.Perm l') : Good l' t mn mx av md where
  total := by rw [h.total, perm_sum p]
  min := ⟨p.mem_iff.1 h.min.1, fun x hx => h.min.2 x (p.mem_iff.2 hx)⟩
  max := ⟨p.mem_iff.1 h.max.1, fun x hx => h.max.2 x (p.mem_iff.2 hx)⟩
  average := by rw [← p.length_eq, h.average, perm_sum p]
  median := by
    have := h.median
    obtain ⟨a, ha, b, hb, e, h1, h2⟩ := this
    refine ⟨a, p.mem_iff.1 ha, b, p.mem_iff.1 hb, e, ?_, ?_⟩
    · rw [← p.countP_eq, ← p.countP_eq, ← p.length_eq]; exact h1
    · rw [← p.countP_eq, ← p.countP_eq, ← p.length_eq]; exact h2

theorem pair_sublist {α : Type} {l : List α} {i j : Nat} (hij : i < j) (hj : j < l.length) : [l[i]'(by omega), l[j]].Sublist l := by
  have e : l = l.take j ++ l.drop j := (List.take_append_drop j l).symm
  have h1 : [l[i]'(by omega)].Sublist (l.take j) := by
    rw [List.singleton_sublist]
    exact List.mem_take_iff_getElem.2 ⟨i, by omega, rfl⟩
  have h2 : [l[j]].Sublist (l.drop j) := by
    rw [List.singleton_sublist]
    exact List.mem_drop_iff_getElem.2 ⟨0, by omega, by simp⟩
  have := h1.append h2
  rw [← e] at this
  exact this

theorem summarize_good {α : Type} (N : Num α) (v : α → Rat) {w : List (α × Nat)} (h0 : w ≠ [])
    (hs : (w.map fun a => v a.1).Pairwise (· ≤ ·)) (hd : ∀ a ∈ w, N.toDbl a.1 = .fin (v a.1))
    (hp : ∀ a b, [a, b].Sublist (w.map (·.1)) → N.toDbl (N.add a b) = .fin (v a + v b))
    (ht : N.toDbl (accumulate N (w.map (·.1))) = .fin ((w.map fun a => v a.1).sum)) :
    ∃ t av md, N.toDbl (summarize N w).total = .fin t ∧ (summarize N w).average = .fin av ∧ (summarize N w).median = .fin md ∧
      (summarize N w).values = w ∧
      Good (w.map fun a => v a.1) t (v (summarize N w).min) (v (summarize N w).max) av md := by
  cases w with
  | nil => exact absurd rfl h0
  | cons x l =>
    have hm := middle hs (by simp) (v x.1)
    have hlen : ((x :: l).map fun a => v a.1).length = (x :: l).length := by simp
    have hlen' : ((x :: l).map (·.1)).length = (x :: l).length := by simp
    have hpos : 0 < (x :: l).length := by simp
    have hget : ∀ i, i < (x :: l).length → ((x :: l).map fun a => v a.1).getD i (v x.1) = v (((x :: l).map (·.1)).getD i x.1) := by
      intro i hi
      rw [List.getD_eq_getElem?_getD, List.getD_eq_getElem?_getD, List.getElem?_map, List.getElem?_map, List.getElem?_eq_getElem hi]
      rfl
    have hgd : ∀ i, i < (x :: l).length → N.toDbl (((x :: l).map (·.1)).getD i x.1) = .fin (v (((x :: l).map (·.1)).getD i x.1)) := by
      intro i hi
      rw [List.getD_eq_getElem?_getD, List.getElem?_map, List.getElem?_eq_getElem hi]
      exact hd _ (List.getElem_mem hi)
    refine ⟨((x :: l).map fun a => v a.1).sum, ((x :: l).map fun a => v a.1).sum / ((x :: l).length : Nat), _, ht, ?_, ?_, rfl, ⟨rfl, ?_, ?_, ?_, hm⟩⟩
    · show (N.toDbl (accumulate N ((x :: l).map (·.1)))).div (.fin (((x :: l).map (·.1)).length : Nat)) = _
      rw [ht, hlen']
      have : (((x :: l).length : Nat) : Rat) ≠ 0 := by
        intro h; rw [Rat.natCast_eq_zero_iff] at h; omega
      simp only [Dbl.div, if_neg this]
    · show (if ((x :: l).map (·.1)).length % 2 ≠ 0 then _ else _) = _
      rw [hlen, hlen']
      split
      · exact (hgd _ (by omega)).trans (by rw [hget _ (by omega)])
      · rename_i ho
        have h1 : (x :: l).length / 2 - 1 < (x :: l).length := by omega
        have h2 : (x :: l).length / 2 < (x :: l).length := by omega
        rw [hget _ h1, hget _ h2]
        have hsub : [((x :: l).map (·.1)).getD ((x :: l).length / 2 - 1) x.1, ((x :: l).map (·.1)).getD ((x :: l).length / 2) x.1].Sublist ((x :: l).map (·.1)) := by
          have := pair_sublist (l := (x :: l).map (·.1)) (i := (x :: l).length / 2 - 1) (j := (x :: l).length / 2) (by omega) (by rw [hlen']; exact h2)
          rw [List.getD_eq_getElem?_getD, List.getD_eq_getElem?_getD, List.getElem?_eq_getElem (by rw [hlen']; exact h1), List.getElem?_eq_getElem (by rw [hlen']; exact h2)]
          exact this
        rw [hp _ _ hsub]
        simp only [Dbl.div]
        rw [if_neg (by decide +kernel)]
    · constructor
      · show v x.1 ∈ _
        simp
      · intro y hy
        rw [List.map_cons, List.mem_cons] at hy
        rcases hy with rfl | hy
        · exact Rat.le_refl
        · rw [List.map_cons, List.pairwise_cons] at hs
          exact hs.1 y hy
    · have e : v (summarize N (x :: l)).max = ((x :: l).map fun a => v a.1).getLast (by simp) := by
        show v ((((x :: l).map (·.1)).getLast?).getD x.1) = _
        rw [List.getLast?_eq_some_getLast (by simp), Option.getD_some, List.getLast_map, List.getLast_map]
      rw [e]
      constructor
      · exact List.getLast_mem _
      · intro y hy
        obtain ⟨i, hi, rfl⟩ := List.getElem_of_mem hy
        rw [List.getLast_eq_getElem]
        exact sorted_le hs (by omega) (by omega)
    · rw [hlen]
      apply Rat.div_mul_cancel
      intro h; rw [Rat.natCast_eq_zero_iff] at h; omega

theorem weak_val {α : Type} {lt : α → α → Bool} (v : α → Rat) {l : List (α × Nat)} (h : ∀ a ∈ l, ∀ b ∈ l, lt a.1 b.1 = decide (v a.1 < v b.1)) : Weak lt l := by
  refine ⟨?_, ?_, ?_⟩
  · intro a ha; rw [h a ha a ha]; simp [Rat.lt_irrefl]
  · intro a ha b hb c hc h1 h2
    rw [h a ha b hb] at h1; rw [h b hb c hc] at h2; rw [h a ha c hc]
    simp only [decide_eq_true_eq] at *
    grind
  · intro a ha b hb c hc h1 h2 h3 h4
    rw [h a ha b hb] at h1; rw [h b hb a ha] at h2; rw [h b hb c hc] at h3; rw [h c hc b hb] at h4
    rw [h a ha c hc, h c hc a ha]
    simp only [decide_eq_false_iff_not] at *
    grind

/-- Summaries of exact values. -/
theorem summary_good {α : Type} (N : Num α) (v : α → Rat) {fs : List FileData} {get : FileData → α} {r : Option (Sum α)} (h : Summary N fs get r)
    (h0 : fs ≠ []) (hlt : ∀ f ∈ fs, ∀ g ∈ fs, N.lt (get f) (get g) = decide (v (get f) < v (get g)))
    (hd : ∀ f ∈ fs, N.toDbl (get f) = .fin (v (get f)))
    (hp : ∀ l : List α, l.Perm (fs.map get) → ∀ a b, [a, b].Sublist l → N.toDbl (N.add a b) = .fin (v a + v b))
    (ht : ∀ l : List α, l.Perm (fs.map get) → N.toDbl (accumulate N l) = .fin (l.map v).sum) :
    ∃ s t av md, r = some s ∧ N.toDbl s.total = .fin t ∧ s.average = .fin av ∧ s.median = .fin md ∧
      Good (fs.map fun f => v (get f)) t (v s.min) (v s.max) av md ∧
      s.values.Perm (fs.map fun f => (get f, f.dev)) ∧ s.values.Pairwise (fun a b => v a.1 ≤ v b.1) ∧ s = summarize N s.values := by
  obtain ⟨w, hw, hr⟩ := h
  have hW : Weak N.lt (fs.map fun f => (get f, f.dev)) := by
    apply weak_val v
    intro a ha b hb
    obtain ⟨f, hf, rfl⟩ := List.mem_map.1 ha
    obtain ⟨g, hg, rfl⟩ := List.mem_map.1 hb
    exact hlt f hf g hg
  cases w with
  | none => exact absurd hW hw
  | some w =>
    obtain ⟨_, hpm, hpw⟩ := hw
    have hmem : ∀ a ∈ w, ∃ f ∈ fs, a = (get f, f.dev) := by
      intro a ha
      obtain ⟨f, hf, e⟩ := List.mem_map.1 (hpm.mem_iff.1 ha)
      exact ⟨f, hf, e.symm⟩
    have hw0 : w ≠ [] := by
      intro e; subst e
      have := hpm.length_eq
      rw [List.length_map] at this
      exact h0 (List.eq_nil_of_length_eq_zero this.symm)
    have hpm1 : (w.map (·.1)).Perm (fs.map get) := by
      have := hpm.map (·.1)
      rw [List.map_map] at this
      exact this
    have hsort : w.Pairwise (fun a b => v a.1 ≤ v b.1) := by
      refine List.Pairwise.imp_of_mem ?_ hpw
      intro a b ha hb hab
      obtain ⟨f, hf, rfl⟩ := hmem a ha
      obtain ⟨g, hg, rfl⟩ := hmem b hb
      rw [hlt g hg f hf] at hab
      exact Rat.not_lt.1 (by simpa using hab)
    obtain ⟨t, av, md, e1, e2, e3, e4, e5⟩ := summarize_good N v hw0 (List.pairwise_map.2 hsort)
      (fun a ha => by obtain ⟨f, hf, rfl⟩ := hmem a ha; exact hd f hf) (fun a b hab => hp _ hpm1 a b hab)
      (by rw [ht _ hpm1, List.map_map]; rfl)
    refine ⟨summarize N w, t, av, md, hr, e1, e2, e3, e5.perm ?_, by rw [e4]; exact hpm, by rw [e4]; exact hsort, by rw [e4]⟩
    have := hpm.map (fun a => v a.1)
    rw [List.map_map] at this
    exact this

/-! ### The types -/

theorem nat_sum_cast (l : List Nat) : ((l.sum : Nat) : Rat) = (l.map fun (a : Nat) => (a : Rat)).sum := by
  induction l with
  | nil => rfl
  | cons x l ih => rw [List.sum_cons, List.map_cons, List.sum_cons, Rat.natCast_add, ih]

theorem accumulate_uns (m : Nat) (l : List Nat) : accumulate (uns m) l % m = l.sum % m := by
  have : ∀ a, l.foldl (uns m).add a % m = (a + l.sum) % m := by
    induction l with
    | nil => intro a; simp
    | cons x l ih =>
      intro a
      rw [List.foldl_cons, ih, List.sum_cons]
      show ((a + x) % m + l.sum) % m = _
      rw [Nat.mod_add_mod, Nat.add_assoc]
  have h := this 0
  rw [Nat.zero_add] at h
  exact h

theorem accumulate_lt {m : Nat} (hm : 0 < m) (l : List Nat) : accumulate (uns m) l < m := by
  have : ∀ a, a < m → l.foldl (uns m).add a < m := by
    induction l with
    | nil => intro a h; exact h
    | cons x l ih => intro a _; exact ih _ (Nat.mod_lt _ hm)
  exact this 0 hm

theorem accumulate_exact {m : Nat} {l : List Nat} (h : l.sum < m) : accumulate (uns m) l = l.sum := by
  have h1 := accumulate_uns m l
  rw [Nat.mod_eq_of_lt (accumulate_lt (by omega) l), Nat.mod_eq_of_lt h] at h1
  exact h1

theorem pair_sum {l : List Nat} {a b : Nat} (h : [a, b].Sublist l) : a + b ≤ l.sum := by
  have : ∀ {l l' : List Nat}, l.Sublist l' → l.sum ≤ l'.sum := by
    intro l l' h
    induction h with
    | slnil => exact Nat.le_refl _
    | cons a _ ih => rw [List.sum_cons]; omega
    | cons_cons a _ ih => rw [List.sum_cons, List.sum_cons]; omega
  have := this h
  simpa using this

theorem accumulate_dbl (l : List Dbl) (v : Dbl → Rat) (h : ∀ a ∈ l, a = .fin (v a)) : accumulate dbl l = .fin (l.map v).sum := by
  have : ∀ q, l.foldl dbl.add (.fin q) = .fin (q + (l.map v).sum) := by
    induction l with
    | nil => intro q; show Dbl.fin q = Dbl.fin (q + 0); rw [Rat.add_zero]
    | cons x l ih =>
      intro q
      have hx := h x (by simp)
      have e : dbl.add (.fin q) x = .fin (q + v x) := by
        generalize v x = y at hx ⊢
        subst hx; rfl
      rw [List.foldl_cons, e, ih (fun a ha => h a (by simp [ha])), List.map_cons, List.sum_cons, Rat.add_assoc]
  have h1 := this 0
  rw [Rat.zero_add] at h1
  exact h1

theorem summary_uns {m : Nat} {fs : List FileData} {get : FileData → Nat} {r : Option (Sum Nat)} (h : Summary (uns m) fs get r) (h0 : fs ≠ [])
    (hm : (fs.map get).sum < m) :
    ∃ s av md, r = some s ∧ s.average = .fin av ∧ s.median = .fin md ∧ Good (fs.map fun f => (get f : Rat)) (s.total : Rat) (s.min : Rat) (s.max : Rat) av md ∧
      s.values.Perm (fs.map fun f => (get f, f.dev)) ∧ s.values.Pairwise (fun a b => a.1 ≤ b.1) ∧ s = summarize (uns m) s.values := by
  obtain ⟨s, t, av, md, h1, h2, h3, h4, h5, h6, h7, h8⟩ := summary_good (uns m) (fun a : Nat => (a : Rat)) h h0
    (fun f _ g _ => by show decide (get f < get g) = _; simp [Rat.natCast_lt_natCast])
    (fun f _ => rfl)
    (fun l hl a b hab => by
      show Dbl.fin (((a + b) % m : Nat) : Rat) = _
      rw [Nat.mod_eq_of_lt (Nat.lt_of_le_of_lt (pair_sum hab) (by rw [hl.sum_nat]; exact hm)), Rat.natCast_add])
    (fun l hl => by
      show Dbl.fin ((accumulate (uns m) l : Nat) : Rat) = _
      rw [accumulate_exact (by rw [hl.sum_nat]; exact hm), nat_sum_cast])
  refine ⟨s, av, md, h1, h3, h4, ?_, h6, h7.imp fun h => Rat.natCast_le_natCast.1 h, h8⟩
  have : t = (s.total : Rat) := by
    have h2 : Dbl.fin (s.total : Rat) = .fin t := h2
    injection h2 with h2; exact h2.symm
  rw [this] at h5
  exact h5

def ratOf : Dbl → Rat
  | .fin q => q
  | _ => 0

theorem summary_dbl {fs : List FileData} {get : FileData → Dbl} {r : Option (Sum Dbl)} (h : Summary dbl fs get r) (h0 : fs ≠ [])
    (v : FileData → Rat) (hv : ∀ f ∈ fs, get f = .fin (v f)) :
    ∃ s t mn mx av md, r = some s ∧ s.total = .fin t ∧ s.min = .fin mn ∧ s.max = .fin mx ∧ s.average = .fin av ∧ s.median = .fin md ∧
      Good (fs.map v) t mn mx av md ∧
      s.values.Perm (fs.map fun f => (get f, f.dev)) ∧ s.values.Pairwise (fun a b => ratOf a.1 ≤ ratOf b.1) ∧ s = summarize dbl s.values := by
  have hr : ∀ f ∈ fs, ratOf (get f) = v f := fun f hf => by rw [hv f hf]; rfl
  have hfin : ∀ l : List Dbl, l.Perm (fs.map get) → ∀ a ∈ l, a = .fin (ratOf a) := by
    intro l hl a ha
    obtain ⟨f, hf, rfl⟩ := List.mem_map.1 (hl.mem_iff.1 ha)
    rw [hv f hf]; rfl
  obtain ⟨s, t, av, md, h1, h2, h3, h4, h5, h6, h7, h8⟩ := summary_good dbl ratOf h h0
    (fun f hf g hg => by rw [hv f hf, hv g hg]; rfl)
    (fun f hf => by rw [hv f hf]; rfl)
    (fun l hl a b hab => by
      have ha := hfin l hl a (hab.subset (by simp))
      have hb := hfin l hl b (hab.subset (by simp))
      rw [ha, hb]; rfl)
    (fun l hl => accumulate_dbl l ratOf (hfin l hl))
  have hvals : ∀ a ∈ s.values.map (·.1), a = .fin (ratOf a) := by
    intro a ha
    obtain ⟨x, hx, rfl⟩ := List.mem_map.1 ha
    obtain ⟨f, hf, e⟩ := List.mem_map.1 (h6.mem_iff.1 hx)
    rw [← e]
    show get f = _
    rw [hv f hf]; rfl
  have hne : s.values ≠ [] := by
    intro e
    rw [e] at h6
    exact h0 (List.map_eq_nil_iff.1 (List.nil_perm.1 h6))
  have hmin : s.min ∈ s.values.map (·.1) := by
    rw [h8]
    cases hs : s.values with
    | nil => exact absurd hs hne
    | cons x l => simp [summarize]
  have hmax : s.max ∈ s.values.map (·.1) := by
    rw [h8]
    cases hs : s.values with
    | nil => exact absurd hs hne
    | cons x l =>
      show ((x :: l).map (·.1)).getLast?.getD x.1 ∈ (x :: l).map (·.1)
      rw [List.getLast?_eq_some_getLast (by simp)]
      exact List.getLast_mem _
  have e : (fs.map fun f => ratOf (get f)) = fs.map v := List.map_congr_left hr
  rw [e] at h5
  exact ⟨s, t, ratOf s.min, ratOf s.max, av, md, h1, h2, hvals _ hmin, hvals _ hmax, h3, h4, h5, h6, h7, h8⟩

end Foxxll.Summary
