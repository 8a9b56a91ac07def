import Verif.Spec.Alloc

set_option linter.unusedSimpArgs false

namespace Foxxll.Alloc

/-- sorted, separated, non-empty regions -/
def Good (m : SpaceMap) : Prop :=
  m.Pairwise (fun a b => a.1 + a.2 < b.1) ∧ ∀ r ∈ m, 0 < r.2

/-- number of regions covering byte `x` -/
def cov (m : List Region) (x : Nat) : Nat :=
  m.countP (fun r => decide (r.1 ≤ x) && decide (x < r.1 + r.2))

def total (m : List Region) : Nat := (m.map Prod.snd).sum

@[simp] theorem cov_nil (x) : cov [] x = 0 := rfl
@[simp] theorem cov_cons (r m x) :
    cov (r :: m) x = cov m x + if r.1 ≤ x ∧ x < r.1 + r.2 then 1 else 0 := by
  simp [cov, List.countP_cons]
@[simp] theorem cov_append (a b x) : cov (a ++ b) x = cov a x + cov b x := by
  simp [cov]
@[simp] theorem total_nil : total [] = 0 := rfl
@[simp] theorem total_cons (r m) : total (r :: m) = r.2 + total m := by simp [total]
@[simp] theorem total_append (a b) : total (a ++ b) = total a + total b := by simp [total]

theorem Good.nil : Good [] := by simp [Good]

theorem erase_mid (A B : SpaceMap) (k v : Nat) (hA : ∀ r ∈ A, r.1 ≠ k) (hB : ∀ r ∈ B, r.1 ≠ k) :
    SpaceMap.erase (A ++ (k, v) :: B) k = A ++ B := by
  simp only [SpaceMap.erase, List.filter_append]
  rw [List.filter_eq_self.2 (by simpa using hA)]
  simp
  simpa using hB

theorem takeWhile_append_all {α} (p : α → Bool) (A B : List α) (hA : ∀ a ∈ A, p a = true)
    (hB : ∀ b ∈ B, p b = false) : (A ++ B).takeWhile p = A ∧ (A ++ B).dropWhile p = B := by
  induction A with
  | nil =>
    cases B with
    | nil => simp
    | cons b B => simp [hB b (by simp)]
  | cons a A ih =>
    have h1 := hA a (by simp)
    have := ih (fun a h => hA a (by simp [h]))
    simp [h1, this]

theorem put_mid (A B : SpaceMap) (k v : Nat) (hA : ∀ r ∈ A, r.1 < k) (hB : ∀ r ∈ B, k < r.1) :
    SpaceMap.put (A ++ B) k v = A ++ (k, v) :: B := by
  simp only [SpaceMap.put]
  rw [(takeWhile_append_all _ A B (by simpa using hA) (by
    intro b hb; have := hB b hb; simp; omega)).1]
  rw [(takeWhile_append_all _ A B (by
    intro b hb; have := hA b hb; simp; omega) (by
    intro b hb; have := hB b hb; simp; omega)).2]

theorem split_at (m : SpaceMap) (h : Good m) (pos : Nat) :
    m = m.filter (fun r => r.1 ≤ pos) ++ m.filter (fun r => pos < r.1) := by
  induction m with
  | nil => simp
  | cons r m ih =>
    obtain ⟨h1, h2⟩ := h
    rw [List.pairwise_cons] at h1
    have ih := ih ⟨h1.2, fun r hr => h2 r (by simp [hr])⟩
    by_cases hp : r.1 ≤ pos
    · have : ¬ pos < r.1 := by omega
      simp only [List.filter_cons, hp, this, decide_true, decide_false, if_true,
        Bool.false_eq_true, if_false, List.cons_append]
      rw [← ih]
    · have h3 : pos < r.1 := by omega
      have h4 : m.filter (fun r => decide (r.1 ≤ pos)) = [] := by
        rw [List.filter_eq_nil_iff]
        intro a ha; have := h1.1 a ha; simp; omega
      have h5 : m.filter (fun r => decide (pos < r.1)) = m := by
        rw [List.filter_eq_self]
        intro a ha; have := h1.1 a ha; simp; omega
      simp only [List.filter_cons, hp, h3, decide_true, decide_false, if_true,
        Bool.false_eq_true, if_false, h4, h5, List.nil_append]

/-- what `addFreeRegion` achieves -/
structure AddSpec (d d' : Disk) (pos size : Nat) : Prop where
  good : Good d'.free
  cov : ∀ x, cov d'.free x = cov d.free x + if pos ≤ x ∧ x < pos + size then 1 else 0
  total : total d'.free = total d.free + size
  freeBytes : d'.freeBytes = d.freeBytes + size
  diskBytes : d'.diskBytes = d.diskBytes
  cfgBytes : d'.cfgBytes = d.cfgBytes
  autogrow : d'.autogrow = d.autogrow

theorem upperBound_eq (m : SpaceMap) (pos) :
    m.upperBound pos = (m.filter (fun r => pos < r.1)).head? := by
  simp [SpaceMap.upperBound, List.head?_filter]

/-- close the coverage goals -/
macro "cov_tac" : tactic =>
  `(tactic| (intro x; simp only [cov_nil, cov_cons, cov_append]; (repeat' split) <;> omega))
/-- close the total goals -/
macro "tot_tac" : tactic =>
  `(tactic| (simp only [total_nil, total_cons, total_append]; omega))

theorem addFreeRegion_ok (d : Disk) (pos size : Nat) (hg : Good d.free) (hs : 0 < size)
    (hno : ∀ x, pos ≤ x → x < pos + size → cov d.free x = 0) :
    ∃ d', addFreeRegion d pos size = .ok d' ∧ AddSpec d d' pos size := by
  obtain ⟨m, fb, db, cb, ag⟩ := d
  simp only at hg hno
  have hsplit := split_at m hg pos
  have hub := upperBound_eq m pos
  have hpred : m.predOf pos = match (m.filter (fun r => r.1 ≤ pos)).getLast? with
    | some p => some p | none => m.upperBound pos := rfl
  have hL : ∀ r ∈ m.filter (fun r => decide (r.1 ≤ pos)), r.1 ≤ pos := by
    intro r hr; simpa using (List.mem_filter.1 hr).2
  have hR : ∀ r ∈ m.filter (fun r => decide (pos < r.1)), pos < r.1 := by
    intro r hr; simpa using (List.mem_filter.1 hr).2
  generalize hLe : m.filter (fun r => decide (r.1 ≤ pos)) = L at *
  generalize hRe : m.filter (fun r => decide (pos < r.1)) = R at *
  clear hLe hRe
  subst hsplit
  rcases List.eq_nil_or_concat L with rfl | ⟨A, p, rfl⟩
  · -- no predecessor
    simp only [List.getLast?_nil] at hpred
    rw [hub] at hpred
    cases R with
    | nil =>
      refine ⟨⟨[(pos, size)], fb + size, db, cb, ag⟩, ?_, ?_⟩
      · simp [addFreeRegion, SpaceMap.put]
      · constructor <;> simp [Good, hs]
    | cons s B =>
      have hs1 := hR s (by simp)
      obtain ⟨h1, h2⟩ := hg
      simp only [List.nil_append, List.pairwise_cons] at h1
      have hs2 := h2 s (by simp)
      have hns : pos + size ≤ s.1 := by
        by_cases hlt : pos + size ≤ s.1
        · exact hlt
        · exfalso
          have := hno s.1 (by omega) (by omega)
          simp at this; omega
      have hB : ∀ r ∈ B, s.1 + s.2 < r.1 := h1.1
      simp only [List.nil_append, List.head?_cons] at hub hpred
      by_cases heq : s.1 = pos + size
      · refine ⟨⟨(pos, size + s.2) :: B, fb + size, db, cb, ag⟩, ?_, ?_⟩
        · have he : SpaceMap.erase (s :: B) s.1 = B := by
            have := erase_mid [] B s.1 s.2 (by simp) (by intro r hr; have := hB r hr; omega)
            simpa using this
          have hp : SpaceMap.put B pos (size + s.2) = (pos, size + s.2) :: B := by
            have := put_mid [] B pos (size + s.2) (by simp) (by intro r hr; have := hB r hr; omega)
            simpa using this
          have hn1 : ¬ s.1 ≤ pos := by omega
          have hn2 : ¬ s.1 < pos + size := by omega
          rw [heq] at he
          have hn3 : ¬ pos + size ≤ pos := by omega
          simp [addFreeRegion, hub, hpred, heq, he, hp, hn3]
        · constructor
          · constructor
            · simp only [List.pairwise_cons]
              exact ⟨fun r hr => by have := hB r hr; (try dsimp only); omega, h1.2⟩
            · intro r hr
              rcases List.mem_cons.1 hr with rfl | hr
              · (try dsimp only); omega
              · exact h2 r (by simp [hr])
          · cov_tac
          · tot_tac
          all_goals simp
      · refine ⟨⟨(pos, size) :: s :: B, fb + size, db, cb, ag⟩, ?_, ?_⟩
        · have hp : SpaceMap.put (s :: B) pos size = (pos, size) :: s :: B := by
            have := put_mid [] (s :: B) pos size (by simp) (by
              intro r hr; rcases List.mem_cons.1 hr with rfl | hr
              · omega
              · have := hB r hr; omega)
            simpa using this
          have hn1 : ¬ s.1 ≤ pos := by omega
          have hn2 : ¬ s.1 < pos + size := by omega
          simp [addFreeRegion, hub, hpred, heq, hn1, hn2, hp]
        · constructor
          · constructor
            · simp only [List.pairwise_cons]
              refine ⟨fun r hr => ?_, h1⟩
              rcases List.mem_cons.1 hr with rfl | hr
              · (try dsimp only); omega
              · have := hB r hr; (try dsimp only); omega
            · intro r hr
              rcases List.mem_cons.1 hr with rfl | hr
              · (try dsimp only); omega
              · exact h2 r (by simpa using hr)
          · cov_tac
          · tot_tac
          all_goals simp
  · -- predecessor p
    simp only [List.concat_eq_append] at *
    simp only [List.getLast?_append, List.getLast?_singleton, Option.some_or] at hpred
    have hp1 := hL p (by simp)
    obtain ⟨h1, h2⟩ := hg
    have hp2 := h2 p (by simp)
    simp only [List.append_assoc, List.cons_append, List.nil_append, List.pairwise_append,
      List.pairwise_cons] at h1
    obtain ⟨hA1, ⟨hpR, hR1⟩, hAB⟩ := h1
    have hAp : ∀ r ∈ A, r.1 + r.2 < p.1 := fun r hr => hAB r hr p (by simp)
    have hnp : p.1 + p.2 ≤ pos := by
      by_cases hlt : p.1 + p.2 ≤ pos
      · exact hlt
      · exfalso
        have := hno pos (by omega) (by omega)
        simp at this; omega
    have hn1 : ¬ pos < p.1 + p.2 := by omega
    cases R with
    | nil =>
      simp only [List.append_nil, List.head?_nil] at hub hpred
      by_cases heq : p.1 + p.2 = pos
      · refine ⟨⟨A ++ [(p.1, size + p.2)], fb + size, db, cb, ag⟩, ?_, ?_⟩
        · have he : SpaceMap.erase (A ++ [p]) p.1 = A := by
            have := erase_mid A [] p.1 p.2 (by intro r hr; have := hAp r hr; omega) (by simp)
            simpa using this
          have hp : SpaceMap.put A p.1 (size + p.2) = A ++ [(p.1, size + p.2)] := by
            have := put_mid A [] p.1 (size + p.2) (by intro r hr; have := hAp r hr; omega) (by simp)
            simpa using this
          simp [addFreeRegion, hub, hpred, heq, he, hp]
        · constructor
          · constructor
            · simp only [List.pairwise_append, List.pairwise_cons]
              refine ⟨hA1, by simp, fun a ha b hb => ?_⟩
              simp at hb; subst hb
              have := hAp a ha; simpa using this
            · intro r hr
              simp at hr
              rcases hr with hr | rfl
              · exact h2 r (by simp [hr])
              · (try dsimp only); omega
          · cov_tac
          · tot_tac
          all_goals simp
      · refine ⟨⟨A ++ [p] ++ [(pos, size)], fb + size, db, cb, ag⟩, ?_, ?_⟩
        · have hp : SpaceMap.put (A ++ [p]) pos size = A ++ [p] ++ [(pos, size)] := by
            have := put_mid (A ++ [p]) [] pos size (by
              intro r hr; simp at hr; rcases hr with hr | rfl
              · have := hAp r hr; omega
              · omega) (by simp)
            simpa using this
          simp only [List.append_assoc, List.cons_append, List.nil_append] at hp
          simp [addFreeRegion, hub, hpred, heq, hn1, hp]
        · constructor
          · constructor
            · simp only [List.append_assoc, List.cons_append, List.nil_append, List.pairwise_append, List.pairwise_cons]
              refine ⟨hA1, by simp; omega, fun a ha b hb => ?_⟩
              have := hAp a ha
              simp at hb; rcases hb with rfl | rfl
              · exact this
              · (try dsimp only); omega
            · intro r hr
              simp at hr
              rcases hr with hr | rfl | rfl
              · exact h2 r (by simp [hr])
              · exact hp2
              · (try dsimp only); omega
          · cov_tac
          · tot_tac
          all_goals simp
    | cons s B =>
      have hs1 := hR s (by simp)
      have hs2 := h2 s (by simp)
      have hps := hpR s (by simp)
      simp only [List.pairwise_cons] at hR1
      have hB : ∀ r ∈ B, s.1 + s.2 < r.1 := hR1.1
      have hns : pos + size ≤ s.1 := by
        by_cases hlt : pos + size ≤ s.1
        · exact hlt
        · exfalso
          have := hno s.1 (by omega) (by omega)
          simp at this; omega
      have hn2 : ¬ s.1 < pos + size := by omega
      simp only [List.head?_cons] at hub
      simp only [List.append_assoc, List.cons_append, List.nil_append] at hub hpred ⊢
      have hlen : 1 < A.length + (B.length + 1 + 1) := by omega
      have hfirst : ¬ A.head?.getD p = s := by
        cases A with
        | nil => simp; intro h; subst h; omega
        | cons a A => simp; intro h; subst h; have := hAp a (by simp); omega
      by_cases heq : p.1 + p.2 = pos <;> by_cases heq2 : s.1 = pos + size
      · refine ⟨⟨A ++ (p.1, size + s.2 + p.2) :: B, fb + size, db, cb, ag⟩, ?_, ?_⟩
        · have he1 : SpaceMap.erase (A ++ p :: s :: B) s.1 = A ++ p :: B := by
            have := erase_mid (A ++ [p]) B s.1 s.2 (by
              intro r hr; simp at hr; rcases hr with hr | rfl
              · have := hAp r hr; omega
              · omega) (by intro r hr; have := hB r hr; omega)
            simpa using this
          have he2 : SpaceMap.erase (A ++ p :: B) p.1 = A ++ B := by
            have := erase_mid A B p.1 p.2 (by
              intro r hr; have := hAp r hr; omega) (by intro r hr; have := hB r hr; omega)
            simpa using this
          have hp : SpaceMap.put (A ++ B) p.1 (size + s.2 + p.2) = A ++ (p.1, size + s.2 + p.2) :: B := by
            exact put_mid A B _ _ (by intro r hr; have := hAp r hr; omega)
              (by intro r hr; have := hB r hr; omega)
          simp [addFreeRegion, hub, hpred, hn1, hn2, heq, heq2, hlen, hfirst]
          rw [heq2] at he1
          simp [he1, he2, hp]
        · constructor
          · constructor
            · simp only [List.pairwise_append, List.pairwise_cons]
              refine ⟨hA1, ⟨fun r hr => ?_, hR1.2⟩, fun a ha b hb => ?_⟩
              · have := hB r hr; (try dsimp only); omega
              · have := hAp a ha
                rcases List.mem_cons.1 hb with rfl | hb
                · (try dsimp only); omega
                · have := hB b hb; omega
            · intro r hr
              simp at hr
              rcases hr with hr | rfl | hr
              · exact h2 r (by simp [hr])
              · (try dsimp only); omega
              · exact h2 r (by simp [hr])
          · cov_tac
          · tot_tac
          all_goals simp
      · refine ⟨⟨A ++ (p.1, size + p.2) :: s :: B, fb + size, db, cb, ag⟩, ?_, ?_⟩
        · have he2 : SpaceMap.erase (A ++ p :: s :: B) p.1 = A ++ s :: B := by
            have := erase_mid A (s :: B) p.1 p.2 (by
              intro r hr; have := hAp r hr; omega) (by
              intro r hr; rcases List.mem_cons.1 hr with rfl | hr
              · omega
              · have := hB r hr; omega)
            simpa using this
          have hp : SpaceMap.put (A ++ s :: B) p.1 (size + p.2) = A ++ (p.1, size + p.2) :: s :: B := by
            exact put_mid A (s :: B) _ _ (by intro r hr; have := hAp r hr; omega)
              (by intro r hr; rcases List.mem_cons.1 hr with rfl | hr
                  · omega
                  · have := hB r hr; omega)
          simp [addFreeRegion, hub, hpred, hn2, heq, heq2, hlen, hfirst, he2, hp]
        · constructor
          · constructor
            · simp only [List.pairwise_append, List.pairwise_cons]
              refine ⟨hA1, ⟨fun r hr => ?_, hR1⟩, fun a ha b hb => ?_⟩
              · rcases List.mem_cons.1 hr with rfl | hr
                · (try dsimp only); omega
                · have := hB r hr; (try dsimp only); omega
              · have := hAp a ha
                rcases List.mem_cons.1 hb with rfl | hb
                · (try dsimp only); omega
                · exact hAB a ha b (by simpa using Or.inr hb)
            · intro r hr
              simp at hr
              rcases hr with hr | rfl | hr
              · exact h2 r (by simp [hr])
              · (try dsimp only); omega
              · exact h2 r (by simp [hr])
          · cov_tac
          · tot_tac
          all_goals simp
      · refine ⟨⟨A ++ p :: (pos, size + s.2) :: B, fb + size, db, cb, ag⟩, ?_, ?_⟩
        · have he1 : SpaceMap.erase (A ++ p :: s :: B) s.1 = A ++ p :: B := by
            have := erase_mid (A ++ [p]) B s.1 s.2 (by
              intro r hr; simp at hr; rcases hr with hr | rfl
              · have := hAp r hr; omega
              · omega) (by intro r hr; have := hB r hr; omega)
            simpa using this
          have hp : SpaceMap.put (A ++ p :: B) pos (size + s.2) = A ++ p :: (pos, size + s.2) :: B := by
            have := put_mid (A ++ [p]) B pos (size + s.2) (by
              intro r hr; simp at hr; rcases hr with hr | rfl
              · have := hAp r hr; omega
              · omega) (by intro r hr; have := hB r hr; omega)
            simpa using this
          simp [addFreeRegion, hub, hpred, hn1, hn2, heq, heq2, hlen, hfirst]
          rw [heq2] at he1
          simp [he1, hp]
        · constructor
          · constructor
            · simp only [List.pairwise_append, List.pairwise_cons]
              refine ⟨hA1, ⟨fun r hr => ?_, ?_, hR1.2⟩, fun a ha b hb => ?_⟩
              · rcases List.mem_cons.1 hr with rfl | hr
                · (try dsimp only); omega
                · have := hB r hr; omega
              · intro r hr
                have := hB r hr; (try dsimp only); omega
              · have := hAp a ha
                simp at hb
                rcases hb with rfl | rfl | hb
                · omega
                · (try dsimp only); omega
                · have := hB b hb; omega
            · intro r hr
              simp at hr
              rcases hr with hr | rfl | rfl | hr
              · exact h2 r (by simp [hr])
              · exact hp2
              · (try dsimp only); omega
              · exact h2 r (by simp [hr])
          · cov_tac
          · tot_tac
          all_goals simp
      · refine ⟨⟨A ++ p :: (pos, size) :: s :: B, fb + size, db, cb, ag⟩, ?_, ?_⟩
        · have hp : SpaceMap.put (A ++ p :: s :: B) pos size = A ++ p :: (pos, size) :: s :: B := by
            have := put_mid (A ++ [p]) (s :: B) pos size (by
              intro r hr; simp at hr; rcases hr with hr | rfl
              · have := hAp r hr; omega
              · omega) (by
              intro r hr; rcases List.mem_cons.1 hr with rfl | hr
              · omega
              · have := hB r hr; omega)
            simpa using this
          simp [addFreeRegion, hub, hpred, hn1, hn2, heq, heq2, hlen, hfirst, hp]
        · constructor
          · constructor
            · simp only [List.pairwise_append, List.pairwise_cons]
              refine ⟨hA1, ⟨fun r hr => ?_, ?_, hR1⟩, fun a ha b hb => ?_⟩
              · simp at hr
                rcases hr with rfl | rfl | hr
                · (try dsimp only); omega
                · omega
                · have := hB r hr; omega
              · intro r hr
                rcases List.mem_cons.1 hr with rfl | hr
                · (try dsimp only); omega
                · have := hB r hr; (try dsimp only); omega
              · have := hAp a ha
                simp at hb
                rcases hb with rfl | rfl | rfl | hb
                · omega
                · (try dsimp only); omega
                · omega
                · have := hB b hb; omega
            · intro r hr
              simp at hr
              rcases hr with hr | rfl | rfl | rfl | hr
              · exact h2 r (by simp [hr])
              · exact hp2
              · (try dsimp only); omega
              · exact hs2
              · exact h2 r (by simp [hr])
          · cov_tac
          · tot_tac
          all_goals simp

end Foxxll.Alloc
