import Verif.Spec.Reports
namespace Foxxll.Reports

variable {c : Nat}

theorem made_append (a b : List Op) : made (a ++ b) = made a ++ made b := by
  induction a with
  | nil => rfl
  | cons x l ih => cases x <;> simp [made, ih]

theorem run_append (s : St) (a : List Op) (op : Op) :
    run c s (a ++ [op]) = match run c s a with | .ok s' => step c s' op | r => r := by
  induction a generalizing s with
  | nil =>
    show (match step c s op with | .ok s' => run c s' [] | r => r) = step c s op
    cases step c s op <;> rfl
  | cons x l ih =>
    show (match step c s x with | .ok s' => run c s' (l ++ [op]) | r => r) = match (match step c s x with | .ok s' => run c s' l | r => r) with | .ok s' => step c s' op | r => r
    cases step c s x with
    | ok s' => exact ih s'
    | ub => rfl
    | noObject => rfl

/-- The object of a call. -/
def target : Op → Option Nat
  | .endTimer i _ | .copyStats i | .report i | .finalReport i | .endStats i => some i
  | _ => none

/-- The values of an object, given what was asked for. -/
def ObjOk (c : Nat) (ops : List Op) (i : Nat) (t0 : Nat) (m : Nat × Bool) : Obj → Prop
  | .timer b t => m = (b, true) ∧ t = Timer.start {} t0
  | .stats b g r => m = (b, false) ∧ g = (t0 : Int) - c ∧ .endStats i ∉ ops ∧ (r = false ↔ .finalReport i ∈ ops)
  | .dead => True

structure Inv (c : Nat) (ops : List Op) (s : St) : Prop where
  len : s.objs.length = (made ops).length
  old : ∀ op ∈ ops, ∀ i, target op = some i → i < s.objs.length
  lines : ∀ l ∈ s.log, l.obj < s.objs.length
  obj : ∀ i o, s.objs[i]? = some o → ∃ t0 m, begins s.log i = [⟨i, t0, .starting⟩] ∧ t0 ≤ s.now ∧ (made ops)[i]? = some m ∧ ObjOk c ops i t0 m o
  cnt : ∀ i, (reports s.log i).length = asked ops i
  val : ∀ l ∈ s.log, ∀ us rate, l.text = .finished us rate → ∃ t0 m, begins s.log l.obj = [⟨l.obj, t0, .starting⟩] ∧ (made ops)[l.obj]? = some m ∧ t0 ≤ l.at_ ∧
    RateOk m.1 (l.at_ - t0) rate ∧ (l.at_ : Int) - t0 ≤ us ∧ (m.1 = 0 ∨ m.2 = false → us = (l.at_ : Int) - t0)

theorem begins_say (log : List Line) (l : Line) (i : Nat) : begins (log ++ [l]) i = begins log i ++ (if l.obj = i ∧ l.text = .starting then [l] else []) := by
  unfold begins; rw [List.filter_append]; congr 1
  by_cases h : l.obj = i ∧ l.text = .starting <;> simp [h]

theorem reports_say (log : List Line) (l : Line) (i : Nat) : reports (log ++ [l]) i = reports log i ++ (if l.obj = i ∧ l.text ≠ .starting then [l] else []) := by
  unfold reports; rw [List.filter_append]; congr 1
  by_cases h : l.obj = i ∧ l.text ≠ .starting <;> simp [h]

theorem speed_some {b : Nat} {us : Nat} {r : Nat} (hb : b ≠ 0) (h : speed b us = some r) : RateOk b us (some r) := by
  unfold speed at h
  split at h
  · cases h
  · rename_i hu
    split at h
    · injection h with h
      rw [Int.toNat_natCast] at h
      have hpos : 0 < us := by omega
      subst h
      refine ⟨hb, Nat.div_mul_le_self _ _, ?_⟩
      rw [Nat.mul_comm (_ + 1)]
      exact Nat.lt_mul_div_succ _ hpos
    · cases h

theorem speed_none {b us : Nat} : speed b us = none ↔ us = 0 ∨ 2 ^ 64 * us ≤ b * 10 ^ 6 := by
  unfold speed
  by_cases hu : us = 0
  · subst hu; simp
  · have hpos : 0 < us := by omega
    rw [if_neg (by omega), Int.toNat_natCast]
    split
    · rename_i h
      have : ¬ 2 ^ 64 * us ≤ b * 10 ^ 6 := fun e => absurd ((Nat.le_div_iff_mul_le hpos).2 e) (by omega)
      simp [hu, this]
    · rename_i h
      have : 2 ^ 64 * us ≤ b * 10 ^ 6 := (Nat.le_div_iff_mul_le hpos).1 (by omega)
      simp [this]

theorem objOk_mono {ops : List Op} {op : Op} {i t0 : Nat} {m : Nat × Bool} {o : Obj} (h : ObjOk c ops i t0 m o) (h1 : op ≠ .endStats i) (h2 : op ≠ .finalReport i) :
    ObjOk c (ops ++ [op]) i t0 m o := by
  cases o with
  | timer b t => exact h
  | dead => trivial
  | stats b g r =>
    obtain ⟨a1, a2, a3, a4⟩ := h
    refine ⟨a1, a2, ?_, ?_⟩
    · rw [List.mem_append, List.mem_singleton]; rintro (e | e)
      · exact a3 e
      · exact h1 e.symm
    · rw [a4, List.mem_append, List.mem_singleton]
      exact ⟨Or.inl, fun e => e.elim id fun e => absurd e.symm h2⟩

theorem made_quiet {ops : List Op} {op : Op} {i : Nat} (ht : target op = some i) : made (ops ++ [op]) = made ops := by
  rw [made_append]
  cases op <;> simp [made] <;> cases ht

/-- A call on object `i`, which says nothing or makes one report. -/
theorem inv_call {ops : List Op} {s : St} (hI : Inv c ops s) {op : Op} {i : Nat} (ht : target op = some i) {o o' : Obj} (ho : s.objs[i]? = some o) (d : Nat)
    (hok : ∀ t0 m, begins s.log i = [⟨i, t0, .starting⟩] → (made ops)[i]? = some m → ObjOk c ops i t0 m o → ObjOk c (ops ++ [op]) i t0 m o')
    {out : List Line} (hout : out = [] ∨ ∃ us rate, out = [⟨i, s.now, .finished us rate⟩] ∧
      ∀ t0 m, t0 ≤ s.now → (made ops)[i]? = some m → ObjOk c ops i t0 m o →
        RateOk m.1 (s.now - t0) rate ∧ (s.now : Int) - t0 ≤ us ∧ (m.1 = 0 ∨ m.2 = false → us = (s.now : Int) - t0))
    (hcnt : ∀ j, asked (ops ++ [op]) j = asked ops j + if j = i then out.length else 0) :
    Inv c (ops ++ [op]) { now := s.now + d, objs := s.objs.set i o', log := s.log ++ out } := by
  have hi : i < s.objs.length := (List.getElem?_eq_some_iff.1 ho).1
  have hb : ∀ j, begins (s.log ++ out) j = begins s.log j := by
    intro j
    rcases hout with e | ⟨us, rate, e, _⟩
    · rw [e, List.append_nil]
    · rw [e, begins_say, if_neg (by simp), List.append_nil]
  have hm := made_quiet (ops := ops) ht
  refine ⟨?_, ?_, ?_, ?_, ?_, ?_⟩
  · show (s.objs.set i o').length = _
    rw [List.length_set, hm]; exact hI.len
  · intro op' h j hj
    show j < (s.objs.set i o').length
    rw [List.length_set]
    rcases List.mem_append.1 h with h | h
    · exact hI.old op' h j hj
    · rw [List.mem_singleton.1 h, ht] at hj; injection hj with hj; omega
  · intro l hl
    show l.obj < (s.objs.set i o').length
    rw [List.length_set]
    rcases List.mem_append.1 hl with h | h
    · exact hI.lines l h
    · rcases hout with e | ⟨us, rate, e, _⟩
      · rw [e] at h; cases h
      · rw [e, List.mem_singleton] at h; rw [h]; exact hi
  · intro j o1 h1
    have h1 : (s.objs.set i o')[j]? = some o1 := h1
    show ∃ t0 m, begins (s.log ++ out) j = _ ∧ t0 ≤ s.now + d ∧ (made (ops ++ [op]))[j]? = some m ∧ _
    rw [hb, hm]
    by_cases hj : i = j
    · subst hj
      rw [List.getElem?_set_self hi] at h1
      injection h1 with h1
      obtain ⟨t0, m, e1, e2, e3, e4⟩ := hI.obj i o ho
      exact ⟨t0, m, e1, by omega, e3, h1 ▸ hok t0 m e1 e3 e4⟩
    · rw [List.getElem?_set_ne hj] at h1
      obtain ⟨t0, m, e1, e2, e3, e4⟩ := hI.obj j o1 h1
      refine ⟨t0, m, e1, by omega, e3, objOk_mono e4 ?_ ?_⟩
      · rintro e; rw [e] at ht; injection ht with ht; exact hj ht.symm
      · rintro e; rw [e] at ht; injection ht with ht; exact hj ht.symm
  · intro j
    show (reports (s.log ++ out) j).length = _
    rw [hcnt, ← hI.cnt j]
    rcases hout with e | ⟨us, rate, e, _⟩
    · rw [e, List.append_nil]; split <;> rfl
    · rw [e, reports_say, List.length_append]
      by_cases hj : j = i
      · subst hj; simp
      · rw [if_neg hj, if_neg (by simp; exact fun e => hj e.symm)]; rfl
  · intro l hl us rate hx
    show ∃ t0 m, begins (s.log ++ out) l.obj = _ ∧ (made (ops ++ [op]))[l.obj]? = some m ∧ _
    rw [hb, hm]
    rcases List.mem_append.1 hl with h | h
    · exact hI.val l h us rate hx
    · rcases hout with e | ⟨us', rate', e, hv⟩
      · rw [e] at h; cases h
      · rw [e, List.mem_singleton] at h
        obtain ⟨t0, m, e1, e2, e3, e4⟩ := hI.obj i o ho
        subst h
        injection hx with x1 x2
        subst x1; subst x2
        exact ⟨t0, m, e1, e3, e2, hv t0 m e2 e3 e4⟩

theorem asked_other {ops : List Op} {op : Op} {i : Nat} (ht : target op = some i) {j : Nat} (hj : j ≠ i) : asked (ops ++ [op]) j = asked ops j := by
  unfold asked
  cases op <;> simp [target] at ht <;> subst ht <;> simp [List.count_append, List.countP_append, hj, Ne.symm hj]

theorem asked_new {ops : List Op} {op : Op} (ht : target op = none) (j : Nat) : asked (ops ++ [op]) j = asked ops j := by
  unfold asked
  cases op <;> simp [target] at ht <;> simp [List.count_append, List.countP_append]

/-- A new object. -/
theorem inv_new {ops : List Op} {s : St} (hI : Inv c ops s) {op : Op} (ht : target op = none) {o : Obj} {m : Nat × Bool} (hm : made [op] = [m])
    (hok : ObjOk c (ops ++ [op]) s.objs.length s.now m o) :
    Inv c (ops ++ [op]) { now := s.now, objs := s.objs ++ [o], log := s.log ++ [⟨s.objs.length, s.now, .starting⟩] } := by
  have hme : made (ops ++ [op]) = made ops ++ [m] := by rw [made_append, hm]
  have hno : ∀ j, j < s.objs.length → begins (s.log ++ [⟨s.objs.length, s.now, .starting⟩]) j = begins s.log j := by
    intro j hj
    rw [begins_say, if_neg (by simp; omega), List.append_nil]
  have hlt : ∀ {j : Nat} {m' : Nat × Bool}, (made ops)[j]? = some m' → (made (ops ++ [op]))[j]? = some m' := by
    intro j m' h
    rw [hme, List.getElem?_append_left (List.getElem?_eq_some_iff.1 h).1]; exact h
  refine ⟨?_, ?_, ?_, ?_, ?_, ?_⟩
  · show (s.objs ++ [o]).length = _
    rw [hme, List.length_append, List.length_append, hI.len]; rfl
  · intro op' h j hj
    show j < (s.objs ++ [o]).length
    rw [List.length_append]
    rcases List.mem_append.1 h with h | h
    · have := hI.old op' h j hj; omega
    · rw [List.mem_singleton.1 h, ht] at hj; cases hj
  · intro l hl
    show l.obj < (s.objs ++ [o]).length
    rw [List.length_append]
    rcases List.mem_append.1 hl with h | h
    · have := hI.lines l h; omega
    · rw [List.mem_singleton.1 h]; simp
  · intro j o1 h1
    have h1 : (s.objs ++ [o])[j]? = some o1 := h1
    by_cases hj : j < s.objs.length
    · rw [List.getElem?_append_left hj] at h1
      obtain ⟨t0, m', e1, e2, e3, e4⟩ := hI.obj j o1 h1
      refine ⟨t0, m', by rw [← e1]; exact hno j hj, e2, hlt e3, objOk_mono e4 ?_ ?_⟩
      · rintro e; rw [e] at ht; cases ht
      · rintro e; rw [e] at ht; cases ht
    · have hj' : j = s.objs.length := by
        have := (List.getElem?_eq_some_iff.1 h1).1
        rw [List.length_append] at this; simp at this; omega
      subst hj'
      rw [List.getElem?_append_right (Nat.le_refl _)] at h1
      simp at h1
      subst h1
      refine ⟨s.now, m, ?_, Nat.le_refl _, ?_, hok⟩
      · show begins (s.log ++ _) _ = _
        rw [begins_say, if_pos ⟨rfl, rfl⟩]
        rw [show begins s.log s.objs.length = [] from ?_]; rfl
        unfold begins
        rw [List.filter_eq_nil_iff]
        intro l hl
        have := hI.lines l hl
        simp; omega
      · rw [hme, List.getElem?_append_right (by rw [hI.len]; exact Nat.le_refl _), hI.len]; simp
  · intro j
    show (reports (s.log ++ _) j).length = _
    rw [asked_new ht, ← hI.cnt j, reports_say, if_neg (by simp), List.append_nil]
  · intro l hl us rate hx
    rcases List.mem_append.1 hl with h | h
    · obtain ⟨t0, m', e1, e2, e3⟩ := hI.val l h us rate hx
      exact ⟨t0, m', by rw [← e1]; exact hno _ (hI.lines l h), hlt e2, e3⟩
    · rw [List.mem_singleton.1 h] at hx; cases hx

theorem inv_init : Inv c [] {} :=
  ⟨rfl, (fun _ h => absurd h (by simp)), (fun l h => absurd (show l ∈ [] from h) (by simp)), (fun i o h => by cases h), (fun _ => rfl), (fun l h => absurd (show l ∈ [] from h) (by simp))⟩

theorem set_self {α : Type} (l : List α) (i : Nat) (o : α) (h : l[i]? = some o) : l.set i o = l := by
  obtain ⟨h1, h2⟩ := List.getElem?_eq_some_iff.1 h
  rw [← h2, List.set_getElem_self]

/-- What `report` does. -/
theorem report_cases {s : St} {i b : Nat} {g : Int} (r : Res) (h : report c s i b g = r) :
    (r = .ub ∧ b ≠ 0 ∧ speed b ((s.now : Int) - c - g) = none) ∨
    ∃ rate, r = .ok { s with log := s.log ++ [⟨i, s.now, .finished ((s.now : Int) - c - g) rate⟩] } ∧
      ((b = 0 ∧ rate = none) ∨ (b ≠ 0 ∧ rate ≠ none ∧ speed b ((s.now : Int) - c - g) = rate)) := by
  unfold report at h
  dsimp only at h
  split at h
  · rename_i hb
    exact .inr ⟨none, h.symm, .inl ⟨hb, rfl⟩⟩
  · rename_i hb
    split at h
    · rename_i e; exact .inl ⟨h.symm, hb, e⟩
    · rename_i q e; exact .inr ⟨some q, h.symm, .inr ⟨hb, by simp, e⟩⟩

theorem rate_ok {b now t0 : Nat} {g : Int} {rate : Option Nat} (hg : g = (t0 : Int) - c) (ht : t0 ≤ now)
    (h : (b = 0 ∧ rate = none) ∨ (b ≠ 0 ∧ rate ≠ none ∧ speed b ((now : Int) - c - g) = rate)) : RateOk b (now - t0) rate := by
  rcases h with ⟨h, e⟩ | ⟨hb, hr, e⟩
  · subst e; exact h
  · cases rate with
    | none => exact absurd rfl hr
    | some r =>
      rw [show (now : Int) - c - g = ((now - t0 : Nat) : Int) by omega] at e
      exact speed_some hb e

theorem inv_report {ops : List Op} {s : St} (hI : Inv c ops s) {op : Op} {i b : Nat} {g : Int} {r : Bool} {o' : Obj} (ho : s.objs[i]? = some (.stats b g r))
    (ht : target op = some i) {s' : St} (h : report c { s with objs := s.objs.set i o' } i b g = .ok s')
    (hok : ∀ t0 m, ObjOk c ops i t0 m (.stats b g r) → ObjOk c (ops ++ [op]) i t0 m o') (hcnt : asked (ops ++ [op]) i = asked ops i + 1) : Inv c (ops ++ [op]) s' := by
  rcases report_cases _ h with ⟨h, _⟩ | ⟨rate, e, hr⟩
  · cases h
  · injection e with e
    subst e
    refine inv_call hI ht ho 0 (fun t0 m _ _ => hok t0 m) (.inr ⟨_, rate, rfl, ?_⟩) ?_
    · rintro t0 m h1 _ ⟨rfl, hg, _⟩
      exact ⟨rate_ok hg h1 hr, by show _ ≤ (s.now : Int) - c - g; omega, fun _ => by show (s.now : Int) - c - g = _; omega⟩
    · intro j
      by_cases hj : j = i
      · subst hj; rw [if_pos rfl]; exact hcnt
      · rw [if_neg hj, asked_other ht hj]; rfl

theorem inv_step {ops : List Op} {s s' : St} (hI : Inv c ops s) {op : Op} (hn : ∀ i, op ≠ .copyStats i) (h : step c s op = .ok s') : Inv c (ops ++ [op]) s' := by
  cases op with
  | tick d =>
    injection h with h
    subst h
    have hm : made (ops ++ [.tick d]) = made ops := by rw [made_append]; simp [made]
    refine ⟨by rw [hm]; exact hI.len, ?_, hI.lines, ?_, fun j => by rw [asked_new rfl]; exact hI.cnt j, fun l hl us rate hx => by rw [hm]; exact hI.val l hl us rate hx⟩
    · intro op' h j hj
      rcases List.mem_append.1 h with h | h
      · exact hI.old op' h j hj
      · rw [List.mem_singleton.1 h] at hj; cases hj
    · intro i o ho
      obtain ⟨t0, m, e1, e2, e3, e4⟩ := hI.obj i o ho
      exact ⟨t0, m, e1, Nat.le_trans e2 (Nat.le_add_right ..), by rw [hm]; exact e3, objOk_mono e4 (by simp) (by simp)⟩
  | newTimer b =>
    injection h with h
    subst h
    exact inv_new hI rfl rfl ⟨rfl, rfl⟩
  | newStats b =>
    injection h with h
    subst h
    refine inv_new hI rfl rfl ⟨rfl, rfl, ?_, ?_⟩
    · intro e
      rcases List.mem_append.1 e with e | e
      · have := hI.old _ e _ rfl; omega
      · simp at e
    · refine ⟨fun e => by simp at e, fun e => ?_⟩
      rcases List.mem_append.1 e with e | e
      · have := hI.old _ e _ rfl; omega
      · simp at e
  | copyStats i => exact absurd rfl (hn i)
  | endTimer i later =>
    dsimp only [step] at h
    split at h
    · rename_i b t ho
      have hc : ∀ j n, n = 1 → asked (ops ++ [.endTimer i later]) j = asked ops j + if j = i then n else 0 := by
        intro j n hn
        subst hn
        by_cases hj : j = i
        · subst hj; unfold asked; simp [List.count_append, List.countP_append]; omega
        · rw [if_neg hj, asked_other rfl hj]; rfl
      unfold endTimer at h
      split at h
      · rename_i hb
        injection h with h
        subst h
        refine inv_call (o' := .dead) (op := .endTimer i later) hI rfl ho 0 (fun _ _ _ _ _ => trivial) (.inr ⟨_, _, rfl, ?_⟩) (fun j => hc j _ rfl)
        rintro t0 m h1 _ ⟨rfl, rfl⟩
        have e : Timer.read (Timer.start {} t0) s.now = (s.now : Int) - t0 := by simp [Timer.read, Timer.start]
        exact ⟨hb, by rw [e]; exact Int.le_refl _, fun _ => e⟩
      · rename_i hb
        split at h
        · cases h
        · rename_i q hq
          injection h with h
          subst h
          refine inv_call (o' := .dead) (op := .endTimer i later) hI rfl ho later (fun _ _ _ _ _ => trivial) (.inr ⟨_, _, rfl, ?_⟩) (fun j => hc j _ rfl)
          rintro t0 m h1 _ ⟨rfl, rfl⟩
          have e : ∀ n : Nat, Timer.read (Timer.start {} t0) n = (n : Int) - t0 := by simp [Timer.read, Timer.start]
          rw [e, show (s.now : Int) - t0 = ((s.now - t0 : Nat) : Int) by omega] at hq
          refine ⟨speed_some hb hq, by rw [e]; omega, ?_⟩
          rintro (e | e)
          · exact absurd e hb
          · cases e
    · cases h
  | report i =>
    dsimp only [step] at h
    split at h
    · rename_i b g r ho
      rw [show s = { s with objs := s.objs.set i (.stats b g r) } by rw [set_self _ _ _ ho]] at h
      refine inv_report hI ho rfl h (fun t0 m e => objOk_mono e (by simp) (by simp)) ?_
      unfold asked; simp [List.count_append, List.countP_append]; omega
    · cases h
  | finalReport i =>
    dsimp only [step] at h
    split at h
    · rename_i b g r ho
      obtain ⟨_, _, _, _, _, _, _, he, _⟩ := hI.obj i _ ho
      refine inv_report hI ho rfl h ?_ ?_
      · rintro t0 m ⟨e1, e2, e3, e4⟩
        refine ⟨e1, e2, ?_, by simp⟩
        simp; exact e3
      · unfold asked; simp [List.count_append, List.countP_append, he]; omega
    · cases h
  | endStats i =>
    dsimp only [step] at h
    split at h
    · rename_i b g ho
      obtain ⟨_, _, _, _, _, _, _, he, hf⟩ := hI.obj i _ ho
      have hf : .finalReport i ∉ ops := fun e => absurd (hf.2 e) (by simp)
      refine inv_report hI ho rfl h (fun _ _ _ => trivial) ?_
      unfold asked; simp [List.count_append, List.countP_append, he, hf]
    · rename_i b g ho
      obtain ⟨_, _, _, _, _, _, _, he, hf⟩ := hI.obj i _ ho
      have hf : .finalReport i ∈ ops := hf.1 rfl
      injection h with h
      have := inv_call (o' := .dead) hI (op := .endStats i) rfl ho 0 (fun _ _ _ _ _ => trivial) (.inl (rfl : ([] : List Line) = [])) (fun j => by
        by_cases hj : j = i
        · subst hj; unfold asked; simp [List.count_append, List.countP_append, hf]
        · rw [if_neg hj, asked_other rfl hj]; rfl)
      rw [List.append_nil] at this
      subst h
      exact this
    · cases h

theorem run_from {pre ops : List Op} {s0 s : St} (h0 : Inv c pre s0) (hn : NoCopy ops) (h : run c s0 ops = .ok s) : Inv c (pre ++ ops) s := by
  induction ops generalizing pre s0 with
  | nil => injection h with h; subst h; rw [List.append_nil]; exact h0
  | cons op l ih =>
    unfold run at h
    split at h
    · rename_i s1 e
      have := ih (inv_step h0 (fun i e => hn i (by simp [e])) e) (fun i hi => hn i (List.mem_cons_of_mem _ hi)) h
      rwa [List.append_assoc] at this
    · rename_i r hr
      exact absurd h (hr _)

theorem run_inv {ops : List Op} {s : St} (hn : NoCopy ops) (h : run c {} ops = .ok s) : Inv c ops s := run_from inv_init hn h

/-- Which calls are undefined. -/
theorem ub_iff {ops : List Op} {s : St} (hI : Inv c ops s) {op : Op} (hn : ∀ i, op ≠ .copyStats i) :
    step c s op = .ub ↔ step c s op ≠ .noObject ∧ ∃ i t0 m, Says ops op i ∧ begins s.log i = [⟨i, t0, .starting⟩] ∧ (made ops)[i]? = some m ∧
      m.1 ≠ 0 ∧ (s.now = t0 ∨ 2 ^ 64 * (s.now - t0) ≤ m.1 * 10 ^ 6) := by
  have hrep : ∀ {i b : Nat} {g : Int} {r : Bool} (o' : Obj), s.objs[i]? = some (.stats b g r) → ((report c { s with objs := s.objs.set i o' } i b g = .ub ↔
      ∃ t0 m, begins s.log i = [⟨i, t0, .starting⟩] ∧ (made ops)[i]? = some m ∧ m.1 ≠ 0 ∧ (s.now = t0 ∨ 2 ^ 64 * (s.now - t0) ≤ m.1 * 10 ^ 6)) ∧
      report c { s with objs := s.objs.set i o' } i b g ≠ .noObject) := by
    intro i b g r o' ho
    obtain ⟨t0, m, e1, e2, e3, e4⟩ := hI.obj i _ ho
    obtain ⟨hm, hg, _⟩ := e4
    subst hm
    have es : (s.now : Int) - c - g = ((s.now - t0 : Nat) : Int) := by omega
    rcases report_cases _ (rfl : report c { s with objs := s.objs.set i o' } i b g = _) with ⟨h1, h2, h3⟩ | ⟨rate, h1, h2⟩
    · have h3 : speed b ((s.now : Int) - c - g) = none := h3
      rw [es, speed_none] at h3
      refine ⟨⟨fun _ => ⟨t0, _, e1, e3, h2, ?_⟩, fun _ => h1⟩, by rw [h1]; simp⟩
      rcases h3 with h3 | h3
      · left; omega
      · right; exact h3
    · refine ⟨⟨fun e => (by rw [h1] at e; cases e), ?_⟩, by rw [h1]; simp⟩
      rintro ⟨t1, m1, f1, f2, f3, f4⟩
      exfalso
      rw [e1] at f1; injection f1 with f1; injection f1 with f1 f1'; subst f1'
      rw [e3] at f2; injection f2 with f2; subst f2
      rcases h2 with ⟨h2, _⟩ | ⟨_, h2, h3⟩
      · exact f3 h2
      · have h3 : speed b ((s.now : Int) - c - g) = rate := h3
        rw [es] at h3
        refine h2 ?_
        rw [← h3, speed_none]
        rcases f4 with f4 | f4
        · left; omega
        · right; exact f4
  cases op with
  | tick d => simp [step, Says]
  | newTimer b => simp [step, Says]
  | newStats b => simp [step, Says]
  | copyStats i => exact absurd rfl (hn i)
  | report i =>
    dsimp only [step]
    split
    · rename_i b g r ho
      have h := hrep (.stats b g r) ho
      rw [set_self _ _ _ ho] at h
      rw [h.1]
      refine ⟨fun ⟨t0, m, e⟩ => ⟨h.2, i, t0, m, .inl rfl, e⟩, ?_⟩
      rintro ⟨_, j, t0, m, hs, e⟩
      have : j = i := by simpa [Says, eq_comm] using hs
      subst this
      exact ⟨t0, m, e⟩
    · simp
  | finalReport i =>
    dsimp only [step]
    split
    · rename_i b g r ho
      have h := hrep (.stats b g false) ho
      rw [h.1]
      refine ⟨fun ⟨t0, m, e⟩ => ⟨h.2, i, t0, m, .inr (.inl rfl), e⟩, ?_⟩
      rintro ⟨_, j, t0, m, hs, e⟩
      have : j = i := by simpa [Says, eq_comm] using hs
      subst this
      exact ⟨t0, m, e⟩
    · simp
  | endStats i =>
    dsimp only [step]
    split
    · rename_i b g ho
      obtain ⟨_, _, _, _, _, _, _, _, hf⟩ := hI.obj i _ ho
      have hf : .finalReport i ∉ ops := fun e => absurd (hf.2 e) (by simp)
      have h := hrep .dead ho
      rw [h.1]
      refine ⟨fun ⟨t0, m, e⟩ => ⟨h.2, i, t0, m, .inr (.inr (.inl ⟨rfl, hf⟩)), e⟩, ?_⟩
      rintro ⟨_, j, t0, m, hs, e⟩
      rcases hs with hs | hs | ⟨hs, _⟩ | ⟨_, hs⟩
      · cases hs
      · cases hs
      · injection hs with hs; subst hs; exact ⟨t0, m, e⟩
      · cases hs
    · rename_i b g ho
      obtain ⟨_, _, _, _, _, _, _, _, hf⟩ := hI.obj i _ ho
      have hf : .finalReport i ∈ ops := hf.1 rfl
      refine ⟨(fun e => by cases e), ?_⟩
      rintro ⟨_, j, t0, m, hs, e⟩
      rcases hs with hs | hs | ⟨hs, hs'⟩ | ⟨_, hs⟩
      · cases hs
      · cases hs
      · injection hs with hs; subst hs; exact absurd hf hs'
      · cases hs
    · simp
  | endTimer i later =>
    dsimp only [step]
    split
    · rename_i b t ho
      obtain ⟨t0, m, e1, e2, e3, e4⟩ := hI.obj i _ ho
      obtain ⟨hm, ht⟩ := e4
      subst hm; subst ht
      have e : Timer.read (Timer.start {} t0) s.now = ((s.now - t0 : Nat) : Int) := by simp [Timer.read, Timer.start]; omega
      have huniq : ∀ {j t1 : Nat} {m1 : Nat × Bool}, Says ops (.endTimer i later) j → begins s.log j = [⟨j, t1, .starting⟩] → (made ops)[j]? = some m1 → t1 = t0 ∧ m1 = (b, true) := by
        intro j t1 m1 hs f1 f2
        have : j = i := by
          rcases hs with hs | hs | ⟨hs, hs'⟩ | ⟨_, hs⟩
          · cases hs
          · cases hs
          · cases hs
          · injection hs with hs; exact hs.symm
        subst this
        rw [e1] at f1; injection f1 with f1; injection f1 with f1 f1'
        rw [e3] at f2; injection f2 with f2
        exact ⟨f1'.symm, f2.symm⟩
      unfold endTimer
      split
      · rename_i hb
        refine ⟨(fun e => by cases e), ?_⟩
        rintro ⟨_, j, t1, m1, hs, f1, f2, f3, _⟩
        obtain ⟨_, rfl⟩ := huniq hs f1 f2
        exact absurd hb f3
      · rename_i hb
        rw [e]
        split
        · rename_i hq
          refine ⟨fun _ => ⟨by simp, i, t0, _, .inr (.inr (.inr ⟨later, rfl⟩)), e1, e3, hb, ?_⟩, fun _ => rfl⟩
          rcases speed_none.1 hq with h | h
          · left; omega
          · right; exact h
        · rename_i q hq
          refine ⟨(fun e => by cases e), ?_⟩
          rintro ⟨_, j, t1, m1, hs, f1, f2, f3, f4⟩
          obtain ⟨rfl, rfl⟩ := huniq hs f1 f2
          have : speed b ((s.now - t1 : Nat) : Int) = none := by
            rw [speed_none]
            rcases f4 with f4 | f4
            · left; omega
            · right; exact f4
          rw [this] at hq; cases hq
    · simp

end Foxxll.Reports
