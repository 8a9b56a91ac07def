import Verif.Proofs.Summary

namespace Foxxll.Summary
open Foxxll.Iostats (FileData)

theorem perm_map {α β : Type} {f : α → β} {l : List β} : ∀ {k : List α}, l.Perm (k.map f) → ∃ k' : List α, k'.Perm k ∧ l = k'.map f := by
  induction l with
  | nil =>
    intro k h
    have := List.map_eq_nil_iff.1 (List.nil_perm.1 h)
    exact ⟨[], by rw [this], rfl⟩
  | cons x l ih =>
    intro k h
    obtain ⟨a, ha, e⟩ := List.mem_map.1 (h.mem_iff.1 (List.mem_cons_self ..))
    obtain ⟨s, t, rfl⟩ := List.append_of_mem ha
    have h1 : (x :: l).Perm (x :: (s ++ t).map f) := by
      refine h.trans ?_
      rw [List.map_append, List.map_cons, List.map_append, e]
      exact List.perm_middle
    obtain ⟨k', hk, e'⟩ := ih (List.perm_cons x |>.1 h1)
    exact ⟨a :: k', (hk.cons a).trans List.perm_middle.symm, by rw [List.map_cons, e, e']⟩

theorem half_lt {a b p : Rat} (hp : 0 < p) (ha : 0 ≤ a) (hb : 0 ≤ b) : (((Dbl.fin (a / p)).div (.fin (b / p))).lt half) = decide (2 * a < b) := by
  by_cases h : b / p = 0
  · have hb0 : b = 0 := by
      have := Rat.div_mul_cancel (a := b) (b := p) (by grind)
      rw [h] at this; grind
    have : ¬ 2 * a < b := by grind
    simp only [Dbl.div, if_pos h, this, decide_false]
    split <;> rfl
  · have hb0 : 0 < b := by
      rcases Rat.le_iff_lt_or_eq.1 hb with h1 | h1
      · exact h1
      · exfalso; apply h; rw [← h1, Rat.div_def, Rat.zero_mul]
    simp only [Dbl.div, if_neg h, Dbl.lt, half]
    have hbp : 0 < b / p := by rw [Rat.lt_div_iff hp]; grind
    rw [decide_eq_decide, Rat.div_lt_iff hbp, Rat.div_lt_iff hp]
    have : 1 / 2 * (b / p) * p = 1 / 2 * b := by
      rw [Rat.mul_assoc, Rat.div_mul_cancel (by grind)]
    rw [this]
    grind

theorem zero_pspeed {b : FileData → Nat} {f : FileData} : pspeed b 0 f = .nan ∨ pspeed b 0 f = .inf := by
  unfold pspeed secs Dbl.div
  simp only [Rat.intCast_zero, if_true]
  split
  · exact .inl rfl
  · exact .inr rfl

theorem pspeed_pos {b : FileData → Nat} {p : Int} (hp : 0 < p) (f : FileData) : pspeed b p f = .fin ((b f : Rat) / (p : Rat)) := by
  have : (p : Rat) ≠ 0 := by
    intro h
    rw [Rat.intCast_eq_zero_iff] at h
    omega
  simp only [pspeed, secs, Dbl.div, if_neg this]

theorem nat_nonneg (a : Nat) : (0 : Rat) ≤ (a : Rat) := by
  have := (Rat.natCast_le_natCast (a := 0) (b := a)).2 (Nat.zero_le _)
  exact this

theorem pspeed_half {b : FileData → Nat} {p : Int} (hp : 0 ≤ p) (f g : FileData) :
    (((pspeed b p f).div (pspeed b p g)).lt half) = decide (0 < p ∧ 2 * b f < b g) := by
  rcases Int.lt_or_eq_of_le hp with h | h
  · rw [pspeed_pos h, pspeed_pos h, half_lt (Rat.intCast_lt_intCast.2 h) (nat_nonneg _) (nat_nonneg _)]
    rw [decide_eq_decide]
    have : (2 : Rat) * (b f : Rat) < (b g : Rat) ↔ 2 * b f < b g := by
      rw [← Rat.natCast_lt_natCast, Rat.natCast_mul]; rfl
    rw [this]
    exact ⟨fun h1 => ⟨h, h1⟩, fun h1 => h1.2⟩
  · subst h
    rcases zero_pspeed (b := b) (f := f) with h1 | h1 <;> rcases zero_pspeed (b := b) (f := g) with h2 | h2 <;> rw [h1, h2] <;> simp [Dbl.div, Dbl.lt]

theorem pspeed_lt {b : FileData → Nat} {p : Int} (hp : 0 ≤ p) (f g : FileData) :
    ((pspeed b p f).lt (pspeed b p g)) = decide (0 < p ∧ b f < b g) := by
  rcases Int.lt_or_eq_of_le hp with h | h
  · rw [pspeed_pos h, pspeed_pos h]
    have hp' : (0 : Rat) < (p : Rat) := Rat.intCast_lt_intCast.2 h
    show decide (_ < _) = _
    rw [decide_eq_decide, Rat.div_lt_iff hp', Rat.div_mul_cancel (by grind), Rat.natCast_lt_natCast]
    exact ⟨fun h1 => ⟨h, h1⟩, fun h1 => h1.2⟩
  · subst h
    rcases zero_pspeed (b := b) (f := f) with h1 | h1 <;> rcases zero_pspeed (b := b) (f := g) with h2 | h2 <;> rw [h1, h2] <;> simp [Dbl.lt]

/-- The sorted files. -/
theorem summary_files {b : FileData → Nat} {p : Int} (hp : 0 ≤ p) {fs : List FileData} {r : Option (Sum Dbl)} (h : Summary dbl fs (pspeed b p) r) :
    ∃ k : List FileData, k.Perm fs ∧ (0 < p → k.Pairwise (fun f g => b f ≤ b g)) ∧ r = some (summarize dbl (k.map fun f => (pspeed b p f, f.dev))) := by
  obtain ⟨v, hv, hr⟩ := h
  cases v with
  | none =>
    exfalso
    apply hv
    have hl : ∀ a ∈ fs.map (fun f => (pspeed b p f, f.dev)), ∀ c ∈ fs.map (fun f => (pspeed b p f, f.dev)), ∃ f g, a.1 = pspeed b p f ∧ c.1 = pspeed b p g := by
      intro a ha c hc
      obtain ⟨f, _, rfl⟩ := List.mem_map.1 ha
      obtain ⟨g, _, rfl⟩ := List.mem_map.1 hc
      exact ⟨f, g, rfl, rfl⟩
    refine ⟨?_, ?_, ?_⟩
    · intro a ha
      obtain ⟨f, _, rfl⟩ := List.mem_map.1 ha
      show Dbl.lt (pspeed b p f) (pspeed b p f) = false
      rw [pspeed_lt hp]; simp
    · intro a ha c hc d hd
      obtain ⟨f, _, rfl⟩ := List.mem_map.1 ha
      obtain ⟨g, _, rfl⟩ := List.mem_map.1 hc
      obtain ⟨e, _, rfl⟩ := List.mem_map.1 hd
      show Dbl.lt (pspeed b p f) (pspeed b p g) = true → Dbl.lt (pspeed b p g) (pspeed b p e) = true → Dbl.lt (pspeed b p f) (pspeed b p e) = true
      rw [pspeed_lt hp, pspeed_lt hp, pspeed_lt hp]
      simp only [decide_eq_true_eq]
      omega
    · intro a ha c hc d hd
      obtain ⟨f, _, rfl⟩ := List.mem_map.1 ha
      obtain ⟨g, _, rfl⟩ := List.mem_map.1 hc
      obtain ⟨e, _, rfl⟩ := List.mem_map.1 hd
      show Dbl.lt (pspeed b p f) (pspeed b p g) = false → Dbl.lt (pspeed b p g) (pspeed b p f) = false → Dbl.lt (pspeed b p g) (pspeed b p e) = false →
        Dbl.lt (pspeed b p e) (pspeed b p g) = false → Dbl.lt (pspeed b p f) (pspeed b p e) = false ∧ Dbl.lt (pspeed b p e) (pspeed b p f) = false
      simp only [pspeed_lt hp, decide_eq_false_iff_not]
      omega
  | some v =>
    obtain ⟨_, h1, h2⟩ := hv
    obtain ⟨k, hk, e⟩ := perm_map h1
    subst e
    refine ⟨k, hk, ?_, hr⟩
    intro h0
    rw [List.pairwise_map] at h2
    refine h2.imp ?_
    intro f g hfg
    have hfg : Dbl.lt (pspeed b p g) (pspeed b p f) = false := hfg
    rw [pspeed_lt hp, decide_eq_false_iff_not] at hfg
    omega

/-! ### The loop -/

theorem slowLoop_take {v : List (Dbl × Nat)} {back : Dbl} : ∀ (n i : Nat), v.length ≤ n + i → (∃ x ∈ v.drop i, ((x.1.div back).lt half) = false) →
    slowLoop v back n i = some (((v.drop i).takeWhile fun x => (x.1.div back).lt half).map (·.2)) := by
  intro n
  induction n with
  | zero =>
    intro i hi hx
    obtain ⟨x, hx, _⟩ := hx
    rw [List.drop_eq_nil_of_le (by omega)] at hx
    cases hx
  | succ n ih =>
    intro i hi hx
    have hlt : i < v.length := by
      rcases Nat.lt_or_ge i v.length with h | h
      · exact h
      · obtain ⟨x, hx, _⟩ := hx
        rw [List.drop_eq_nil_of_le h] at hx
        cases hx
    have e : v.drop i = v[i] :: v.drop (i + 1) := List.drop_eq_getElem_cons hlt
    rw [slowLoop, List.getElem?_eq_getElem hlt]
    simp only
    rw [e, List.takeWhile_cons]
    split
    · rename_i hs
      rw [ih (i + 1) (by omega) ?_]
      · rfl
      · obtain ⟨x, hx, hf⟩ := hx
        rw [e, List.mem_cons] at hx
        rcases hx with rfl | hx
        · rw [hs] at hf; cases hf
        · exact ⟨x, hx, hf⟩
    · rfl

theorem takeWhile_filter {α : Type} {p : α → Bool} {l : List α} (h : l.Pairwise (fun a b => p b = true → p a = true)) : l.takeWhile p = l.filter p := by
  induction l with
  | nil => rfl
  | cons x l ih =>
    rw [List.pairwise_cons] at h
    rw [List.takeWhile_cons, List.filter_cons]
    split
    · rw [ih h.2]
    · rename_i hx
      symm
      rw [List.filter_eq_nil_iff]
      intro y hy hp
      exact hx (h.1 y hy hp)

theorem takeWhile_map {α β : Type} {f : α → β} {p : β → Bool} (l : List α) : (l.map f).takeWhile p = (l.takeWhile (p ∘ f)).map f := by
  induction l with
  | nil => rfl
  | cons x l ih =>
    rw [List.map_cons, List.takeWhile_cons, List.takeWhile_cons]
    simp only [Function.comp]
    split
    · rw [List.map_cons]; exact congrArg _ ih
    · rfl

theorem sorted_last {b : FileData → Nat} {k : List FileData} (h : k.Pairwise (fun f g => b f ≤ b g)) (h0 : k ≠ []) : ∀ f ∈ k, b f ≤ b (k.getLast h0) := by
  intro f hf
  obtain ⟨i, hi, rfl⟩ := List.getElem_of_mem hf
  rw [List.getLast_eq_getElem]
  rcases Nat.lt_or_ge i (k.length - 1) with h1 | h1
  · exact List.pairwise_iff_getElem.1 h i _ hi (by omega) h1
  · have : i = k.length - 1 := by omega
    subst this; exact Nat.le_refl _

theorem slowList_names {b : FileData → Nat} {p : Int} (hp : 0 ≤ p) {fs k : List FileData} (hk : k.Perm fs) (hs : 0 < p → k.Pairwise (fun f g => b f ≤ b g))
    (h2 : 2 ≤ fs.length) : ∃ l, slowList (summarize dbl (k.map fun f => (pspeed b p f, f.dev))) = some l ∧ Names fs b p l := by
  have hlen : 2 ≤ k.length := by rw [hk.length_eq]; exact h2
  have hv : (summarize dbl (k.map fun f => (pspeed b p f, f.dev))).values = k.map fun f => (pspeed b p f, f.dev) := by
    cases k <;> rfl
  cases k with
  | nil => simp at hlen
  | cons f k =>
    have h0 : k ≠ [] := by intro e; subst e; simp at hlen
    have hlast : ((f :: k).map fun f => (pspeed b p f, f.dev)).getLast? = some (pspeed b p (k.getLast h0), (k.getLast h0).dev) := by
      rw [List.getLast?_map, List.getLast?_eq_some_getLast (List.cons_ne_nil _ _), Option.map_some, List.getLast_cons h0]
    unfold slowList
    rw [hv, hlast]
    simp only [List.map_cons]
    rw [← List.map_cons (f := fun f => (pspeed b p f, f.dev))]
    have hnot : ∃ x ∈ ((f :: k).map fun f => (pspeed b p f, f.dev)).drop 1, ((x.1.div (pspeed b p (k.getLast h0))).lt half) = false := by
      refine ⟨(pspeed b p (k.getLast h0), (k.getLast h0).dev), ?_, ?_⟩
      · rw [List.map_cons, List.drop_one, List.tail_cons]
        exact List.mem_map.2 ⟨_, List.getLast_mem h0, rfl⟩
      · simp only
        rw [pspeed_half hp]
        simp only [decide_eq_false_iff_not]
        omega
    rw [slowLoop_take _ 1 (by simp) hnot]
    refine ⟨_, rfl, f, k, hk.symm, ?_, ?_⟩
    · intro h g hg
      exact (List.pairwise_cons.1 (hs h)).1 g hg
    · rw [List.map_cons, List.drop_one, List.tail_cons, takeWhile_map, List.map_map]
      have e : (k.takeWhile ((fun x : Dbl × Nat => (x.1.div (pspeed b p (k.getLast h0))).lt half) ∘ fun f => (pspeed b p f, f.dev))) =
          k.filter fun g => decide (0 < p ∧ Low fs b g) := by
        rw [takeWhile_filter]
        · apply List.filter_congr
          intro g hg
          show ((pspeed b p g).div (pspeed b p (k.getLast h0))).lt half = _
          rw [pspeed_half hp, decide_eq_decide]
          constructor
          · rintro ⟨q, h1⟩
            exact ⟨q, k.getLast h0, hk.mem_iff.1 (List.mem_cons_of_mem _ (List.getLast_mem h0)), h1⟩
          · rintro ⟨q, e, he, h1⟩
            refine ⟨q, Nat.lt_of_lt_of_le h1 ?_⟩
            have := sorted_last (hs q) (List.cons_ne_nil _ _) e (hk.mem_iff.2 he)
            rw [List.getLast_cons h0] at this
            exact this
        · rcases Int.lt_or_eq_of_le hp with q | q
          · have := (List.pairwise_cons.1 (hs q)).2
            refine this.imp ?_
            intro g e hge
            show ((pspeed b p e).div (pspeed b p (k.getLast h0))).lt half = true → ((pspeed b p g).div (pspeed b p (k.getLast h0))).lt half = true
            rw [pspeed_half hp, pspeed_half hp]
            simp only [decide_eq_true_eq]
            omega
          · refine List.pairwise_iff_getElem.2 ?_
            intro i j hi hj _
            show ((pspeed b p k[j]).div (pspeed b p (k.getLast h0))).lt half = true → _
            rw [pspeed_half hp]
            simp only [decide_eq_true_eq]
            omega
      rw [e]
      exact List.Perm.refl _

theorem cond_uneven {b : FileData → Nat} {p : Int} (hp : 0 ≤ p) {fs k : List FileData} (hk : k.Perm fs) (hs : 0 < p → k.Pairwise (fun f g => b f ≤ b g)) :
    ((((summarize dbl (k.map fun f => (pspeed b p f, f.dev))).min).div ((summarize dbl (k.map fun f => (pspeed b p f, f.dev))).max)).lt half = true) ↔
      0 < p ∧ Uneven fs b := by
  cases k with
  | nil =>
    have : fs = [] := List.nil_perm.1 hk
    subst this
    simp [summarize, dbl, Dbl.div, Dbl.lt, Uneven]
  | cons f k =>
    have e1 : (summarize dbl ((f :: k).map fun f => (pspeed b p f, f.dev))).min = pspeed b p f := rfl
    have e2 : (summarize dbl ((f :: k).map fun f => (pspeed b p f, f.dev))).max = pspeed b p ((f :: k).getLast (List.cons_ne_nil _ _)) := by
      show ((((f :: k).map fun f => (pspeed b p f, f.dev)).map (·.1)).getLast?).getD (pspeed b p f) = _
      rw [List.map_map, List.getLast?_map, List.getLast?_eq_some_getLast (List.cons_ne_nil _ _)]
      rfl
    rw [e1, e2, pspeed_half hp]
    simp only [decide_eq_true_eq]
    constructor
    · rintro ⟨q, h⟩
      exact ⟨q, f, hk.mem_iff.1 (List.mem_cons_self ..), _, hk.mem_iff.1 (List.getLast_mem (List.cons_ne_nil _ _)), h⟩
    · rintro ⟨q, g, hg, e, he, h⟩
      refine ⟨q, ?_⟩
      have h1 := sorted_last (hs q) (List.cons_ne_nil _ _) e (hk.mem_iff.2 he)
      have h2 : b f ≤ b g := by
        rcases List.mem_cons.1 (hk.mem_iff.2 hg) with rfl | h3
        · exact Nat.le_refl _
        · exact (List.pairwise_cons.1 (hs q)).1 g h3
      omega

theorem uneven_two {fs : List FileData} {b : FileData → Nat} (h : Uneven fs b) : 2 ≤ fs.length := by
  obtain ⟨f, hf, g, hg, h⟩ := h
  match fs, hf, hg with
  | [x], hf, hg =>
    rw [List.mem_singleton] at hf hg
    subst hf; subst hg
    omega
  | _ :: _ :: _, _, _ => simp

theorem slow_report {fs : List FileData} {b1 b2 b3 : FileData → Nat} {p1 p2 p3 : Int} (h1 : 0 ≤ p1) (h2 : 0 ≤ p2) (h3 : 0 ≤ p3) {r1 r2 r3 : Option (Sum Dbl)}
    (s1 : Summary dbl fs (pspeed b1 p1) r1) (s2 : Summary dbl fs (pspeed b2 p2) r2) (s3 : Summary dbl fs (pspeed b3 p3) r3) :
    ∃ io rd wr rep, r1 = some io ∧ r2 = some rd ∧ r3 = some wr ∧ slowReport io rd wr = some rep ∧
      (rep ≠ none ↔ (0 < p1 ∧ Uneven fs b1) ∨ (0 < p2 ∧ Uneven fs b2) ∨ (0 < p3 ∧ Uneven fs b3)) ∧
      ∀ l l', rep = some (l, l') → Names fs b2 p2 l ∧ Names fs b3 p3 l' := by
  obtain ⟨k1, k1p, k1s, e1⟩ := summary_files h1 s1
  obtain ⟨k2, k2p, k2s, e2⟩ := summary_files h2 s2
  obtain ⟨k3, k3p, k3s, e3⟩ := summary_files h3 s3
  subst e1; subst e2; subst e3
  have c1 := cond_uneven h1 k1p k1s
  have c2 := cond_uneven h2 k2p k2s
  have c3 := cond_uneven h3 k3p k3s
  unfold slowReport
  by_cases hc : (0 < p1 ∧ Uneven fs b1) ∨ (0 < p2 ∧ Uneven fs b2) ∨ (0 < p3 ∧ Uneven fs b3)
  · have hl : 2 ≤ fs.length := by
      rcases hc with h | h | h <;> exact uneven_two h.2
    obtain ⟨l2, a2, n2⟩ := slowList_names h2 k2p k2s hl
    obtain ⟨l3, a3, n3⟩ := slowList_names h3 k3p k3s hl
    refine ⟨_, _, _, some (l2, l3), rfl, rfl, rfl, ?_, by simp [hc], ?_⟩
    · rw [if_pos, a2, a3]
      · rfl
      · unfold slowCond
        simp only [Bool.or_eq_true]
        rw [c1, c2, c3]
        rcases hc with h | h | h
        · exact .inl (.inl h)
        · exact .inl (.inr h)
        · exact .inr h
    · intro l l' e
      injection e with e
      injection e with ea eb
      subst ea; subst eb
      exact ⟨n2, n3⟩
  · refine ⟨_, _, _, none, rfl, rfl, rfl, ?_, by simp [hc], by simp⟩
    rw [if_neg]
    unfold slowCond
    simp only [Bool.or_eq_true]
    rw [c1, c2, c3]
    rintro ((h | h) | h)
    · exact hc (.inl h)
    · exact hc (.inr (.inl h))
    · exact hc (.inr (.inr h))

/-! ### Load -/

theorem load_files {m : Nat} {b : FileData → Nat} {fs : List FileData} {r : Option (Sum Nat)} (h : Summary (uns m) fs b r) :
    ∃ k : List FileData, k.Perm fs ∧ k.Pairwise (fun f g => b f ≤ b g) ∧ r = some (summarize (uns m) (k.map fun f => (b f, f.dev))) := by
  obtain ⟨v, hv, hr⟩ := h
  cases v with
  | none =>
    exact absurd (weak_val (fun a : Nat => (a : Rat)) (fun a _ c _ => by show decide (a.1 < c.1) = _; simp [Rat.natCast_lt_natCast])) hv
  | some v =>
    obtain ⟨_, h1, h2⟩ := hv
    obtain ⟨k, hk, e⟩ := perm_map h1
    subst e
    refine ⟨k, hk, ?_, hr⟩
    rw [List.pairwise_map] at h2
    refine h2.imp ?_
    intro f g hfg
    have hfg : decide (b g < b f) = false := hfg
    simpa using hfg

theorem load_cond (a b : Nat) : (((Dbl.fin a).div (.fin b)).lt half = true) ↔ 2 * a < b := by
  have h := half_lt (a := (a : Rat)) (b := (b : Rat)) (p := 1) (by decide +kernel) (nat_nonneg _) (nat_nonneg _)
  have e : ∀ x : Rat, x / 1 = x := by intro x; rw [Rat.div_def]; grind
  rw [e, e] at h
  rw [h, decide_eq_true_eq]
  have : (2 : Rat) * (a : Rat) < (b : Rat) ↔ 2 * a < b := by
    rw [← Rat.natCast_lt_natCast, Rat.natCast_mul]; rfl
  exact this

/-- Devices with the least and the greatest value. -/
def Ends (fs : List FileData) (b : FileData → Nat) (e : Nat × Nat) : Prop :=
  ∃ f ∈ fs, ∃ g ∈ fs, (∀ x ∈ fs, b f ≤ b x ∧ b x ≤ b g) ∧ e = (f.dev, g.dev)

theorem load_one {m : Nat} {b : FileData → Nat} {fs k : List FileData} (hk : k.Perm fs) (hs : k.Pairwise (fun f g => b f ≤ b g)) :
    ((((Dbl.fin (summarize (uns m) (k.map fun f => (b f, f.dev))).min).div (.fin (summarize (uns m) (k.map fun f => (b f, f.dev))).max)).lt half = true) ↔ Uneven fs b) ∧
    (fs ≠ [] → ∃ e, ends (summarize (uns m) (k.map fun f => (b f, f.dev))) = some e ∧ Ends fs b e) := by
  cases k with
  | nil =>
    have : fs = [] := List.nil_perm.1 hk
    subst this
    refine ⟨?_, fun h => absurd rfl h⟩
    rw [load_cond]
    simp [summarize, uns, Uneven]
  | cons f k =>
    have h0 := List.cons_ne_nil f k
    have e1 : (summarize (uns m) ((f :: k).map fun f => (b f, f.dev))).min = b f := rfl
    have e2 : (summarize (uns m) ((f :: k).map fun f => (b f, f.dev))).max = b ((f :: k).getLast h0) := by
      show ((((f :: k).map fun f => (b f, f.dev)).map (·.1)).getLast?).getD (b f) = _
      rw [List.map_map, List.getLast?_map, List.getLast?_eq_some_getLast h0]
      rfl
    have hmin : ∀ x ∈ fs, b f ≤ b x := by
      intro x hx
      rcases List.mem_cons.1 (hk.mem_iff.2 hx) with rfl | h3
      · exact Nat.le_refl _
      · exact (List.pairwise_cons.1 hs).1 x h3
    have hmax : ∀ x ∈ fs, b x ≤ b ((f :: k).getLast h0) := fun x hx => sorted_last hs h0 x (hk.mem_iff.2 hx)
    have hf : f ∈ fs := hk.mem_iff.1 (List.mem_cons_self ..)
    have hg : (f :: k).getLast h0 ∈ fs := hk.mem_iff.1 (List.getLast_mem h0)
    constructor
    · rw [e1, e2, load_cond]
      constructor
      · intro h; exact ⟨f, hf, _, hg, h⟩
      · rintro ⟨x, hx, y, hy, h⟩
        have := hmin x hx; have := hmax y hy; omega
    · intro _
      refine ⟨_, ?_, f, hf, _, hg, fun x hx => ⟨hmin x hx, hmax x hx⟩, rfl⟩
      unfold ends
      have hv : (summarize (uns m) ((f :: k).map fun f => (b f, f.dev))).values = (f :: k).map fun f => (b f, f.dev) := rfl
      rw [hv, List.getLast?_map, List.getLast?_eq_some_getLast h0]
      rfl

theorem load_report {m : Nat} {fs : List FileData} {b1 b2 : FileData → Nat} {r1 r2 : Option (Sum Nat)}
    (s1 : Summary (uns m) fs b1 r1) (s2 : Summary (uns m) fs b2 r2) :
    ∃ rd wr rep, r1 = some rd ∧ r2 = some wr ∧ loadReport rd wr = some rep ∧ (rep ≠ none ↔ Uneven fs b1 ∨ Uneven fs b2) ∧
      ∀ e e', rep = some (e, e') → Ends fs b1 e ∧ Ends fs b2 e' := by
  obtain ⟨k1, k1p, k1s, e1⟩ := load_files s1
  obtain ⟨k2, k2p, k2s, e2⟩ := load_files s2
  subst e1; subst e2
  obtain ⟨c1, n1⟩ := load_one (m := m) k1p k1s
  obtain ⟨c2, n2⟩ := load_one (m := m) k2p k2s
  unfold loadReport
  by_cases hc : Uneven fs b1 ∨ Uneven fs b2
  · have h0 : fs ≠ [] := by
      rintro rfl
      rcases hc with h | h <;> have := uneven_two h <;> simp at this
    obtain ⟨x1, a1, d1⟩ := n1 h0
    obtain ⟨x2, a2, d2⟩ := n2 h0
    refine ⟨_, _, some (x1, x2), rfl, rfl, ?_, by simp [hc], ?_⟩
    · rw [if_pos, a1, a2]
      · rfl
      · rw [Bool.or_eq_true, c1, c2]; exact hc
    · intro e e' h
      injection h with h
      injection h with ha hb
      subst ha; subst hb
      exact ⟨d1, d2⟩
  · refine ⟨_, _, none, rfl, rfl, ?_, by simp [hc], by simp⟩
    rw [if_neg]
    rw [Bool.or_eq_true, c1, c2]; exact hc

end Foxxll.Summary
