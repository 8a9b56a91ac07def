import Verif.Spec.FindConfig
/-
Helper lemmas for property C129.
-/
namespace Foxxll.Config

theorem linesFrom_spec : ∀ (s cur : Str), '\n' ∉ cur → (∀ l ∈ linesFrom cur s, '\n' ∉ l) ∧
    (linesFrom cur s).flatMap (· ++ ['\n']) = (if (cur ++ s) = [] ∨ s.getLast? = some '\n' then cur ++ s else cur ++ s ++ ['\n'])
  | [], cur, h => by
    unfold linesFrom
    by_cases hc : cur = []
    · simp [hc]
    · simp [hc, h]
  | ch :: rest, cur, h => by
    unfold linesFrom
    by_cases hn : ch = '\n'
    · subst hn
      rw [if_pos rfl]
      obtain ⟨h1, h2⟩ := linesFrom_spec rest [] (by simp)
      refine ⟨?_, ?_⟩
      · intro l hl
        rcases List.mem_cons.1 hl with h' | h'
        · rw [h']; exact h
        · exact h1 l h'
      · rw [List.flatMap_cons, h2]
        simp only [List.nil_append]
        cases rest with
        | nil => simp
        | cons a r =>
          have e : ('\n' :: a :: r).getLast? = (a :: r).getLast? := by simp [List.getLast?_cons_cons]
          rw [e]
          simp only [reduceCtorEq, false_or, List.append_eq_nil_iff, and_false]
          split <;> simp
    · rw [if_neg hn]
      obtain ⟨h1, h2⟩ := linesFrom_spec rest (cur ++ [ch]) (by simp [h, Ne.symm hn])
      refine ⟨h1, ?_⟩
      rw [h2]
      cases rest with
      | nil => simp [hn]
      | cons a r =>
        have e : (ch :: a :: r).getLast? = (a :: r).getLast? := by simp [List.getLast?_cons_cons]
        rw [e]
        simp

theorem findConfigOs_eq (env : Env) (os : Os) (c : Cfg) :
    findConfigOs env os c = match (candidates os).find? os.good with
      | none => (loadDefault c, false)
      | some p => loadPath env os c p := by
  have e1 : ∀ h : Str, "./.stxxl.".toList ++ h = "./.stxxl".toList ++ '.' :: h := fun h => rfl
  have e2 : ∀ d h : Str, d ++ "/.stxxl.".toList ++ h = (d ++ "/.stxxl".toList) ++ '.' :: h := fun d h => by
    rw [show "/.stxxl.".toList = "/.stxxl".toList ++ ['.'] from rfl]; simp
  have dirs : findDirs env os c = match ((os.hostname.toList.map fun h => "./.stxxl.".toList ++ h) ++ ["./.stxxl".toList] ++
      (os.home.toList.flatMap fun d => (os.hostname.toList.map fun h => d ++ "/.stxxl.".toList ++ h) ++ [d ++ "/.stxxl".toList])).find? os.good with
      | none => (loadDefault c, false)
      | some p => loadPath env os c p := by
    unfold findDirs inDir
    cases os.hostname with
    | none =>
      cases os.home with
      | none =>
        simp only [Option.toList_none, List.map_nil, List.nil_append, List.flatMap_nil, List.append_nil, List.find?_cons, List.find?_nil]
        cases os.good "./.stxxl".toList <;> rfl
      | some d =>
        simp only [Option.toList_none, Option.toList_some, List.map_nil, List.nil_append, List.flatMap_cons, List.flatMap_nil, List.append_nil,
          List.cons_append, List.find?_cons, List.find?_nil]
        cases os.good "./.stxxl".toList
        · cases os.good (d ++ "/.stxxl".toList) <;> rfl
        · rfl
    | some h =>
      cases os.home with
      | none =>
        simp only [Option.toList_none, Option.toList_some, List.map_cons, List.map_nil, List.nil_append, List.flatMap_nil, List.append_nil,
          List.cons_append, List.find?_cons, List.find?_nil, e1]
        cases os.good ("./.stxxl".toList ++ '.' :: h)
        · cases os.good "./.stxxl".toList <;> rfl
        · rfl
      | some d =>
        simp only [Option.toList_some, List.map_cons, List.map_nil, List.nil_append, List.flatMap_cons, List.flatMap_nil, List.append_nil,
          List.cons_append, List.find?_cons, List.find?_nil, e1, e2]
        cases os.good ("./.stxxl".toList ++ '.' :: h)
        · cases os.good "./.stxxl".toList
          · cases os.good (d ++ "/.stxxl".toList ++ '.' :: h)
            · cases os.good (d ++ "/.stxxl".toList) <;> rfl
            · rfl
          · rfl
        · rfl
  unfold findConfigOs candidates
  cases os.cfgVar with
  | none => simpa using dirs
  | some cfg =>
    simp only [Option.toList_some, List.append_assoc, List.cons_append, List.nil_append, List.find?_cons]
    cases hg : os.good cfg
    · simp only [Bool.false_eq_true, if_false]
      rw [dirs]
      simp only [List.append_assoc, List.cons_append, List.nil_append]
    · rfl

/-- What the loop over the lines does. -/
theorem loadLines_spec (env : Env) : ∀ (ls : List Str) (disks fl : List Disk),
    ((loadLines env ls disks fl).2 = none ↔ Faulty env ls) ∧
    (∀ ds, Means env ls ds → loadLines env ls disks fl = (disks ++ ds.filter (fun d => !d.flash), some (fl ++ ds.filter (·.flash)))) ∧
    (Faulty env ls ∨ ∃ ds, Means env ls ds)
  | [], disks, fl => by
    refine ⟨by simp [loadLines, Faulty, entries], ?_, Or.inr ⟨[], rfl⟩⟩
    intro ds h
    simp only [Means, entries, List.filter_nil, List.map_nil] at h
    have : ds = [] := by simpa using h.symm
    subst this
    simp [loadLines]
  | l :: ls, disks, fl => by
    rw [loadLines]
    by_cases hl : l = [] ∨ l.head? = some '#'
    · rw [if_pos hl]
      have e : entries (l :: ls) = entries ls := by
        unfold entries
        rw [List.filter_cons_of_neg]
        rcases hl with h | h
        · simp [h]
        · simp [h]
      have ih := loadLines_spec env ls disks fl
      unfold Means Faulty at ih ⊢
      rw [e]
      exact ih
    · rw [if_neg hl]
      have e : entries (l :: ls) = l :: entries ls := by
        unfold entries
        rw [List.filter_cons_of_pos]
        simp only [not_or] at hl
        cases l with
        | nil => exact absurd rfl hl.1
        | cons a r => simpa using hl.2
      cases hp : parseLine env {} l with
      | ok d =>
        simp only
        have hf : ∀ disks fl, ((loadLines env ls disks fl).2 = none ↔ Faulty env (l :: ls)) := by
          intro disks fl
          rw [(loadLines_spec env ls disks fl).1]
          unfold Faulty
          rw [e]
          constructor
          · rintro ⟨x, hx, h⟩; exact ⟨x, List.mem_cons_of_mem _ hx, h⟩
          · rintro ⟨x, hx, h⟩
            rcases List.mem_cons.1 hx with h' | h'
            · exact absurd hp (h' ▸ h d)
            · exact ⟨x, h', h⟩
        have hm : ∀ ds, Means env (l :: ls) ds → ∃ ds', ds = d :: ds' ∧ Means env ls ds' := by
          intro ds h
          unfold Means at h ⊢
          rw [e, List.map_cons, hp] at h
          cases ds with
          | nil => simp at h
          | cons d' ds' =>
            simp only [List.map_cons, List.cons.injEq, Res.ok.injEq] at h
            exact ⟨ds', by rw [h.1], h.2⟩
        have ht : Faulty env (l :: ls) ∨ ∃ ds, Means env (l :: ls) ds := by
          rcases (loadLines_spec env ls disks fl).2.2 with h | ⟨ds, h⟩
          · obtain ⟨x, hx, h⟩ := h
            exact Or.inl ⟨x, by rw [e]; exact List.mem_cons_of_mem _ hx, h⟩
          · refine Or.inr ⟨d :: ds, ?_⟩
            unfold Means at h ⊢
            rw [e, List.map_cons, hp, h, List.map_cons]
        cases hfl : d.flash
        · simp only [Bool.false_eq_true, if_false]
          refine ⟨hf _ _, ?_, ht⟩
          intro ds h
          obtain ⟨ds', rfl, h'⟩ := hm ds h
          rw [(loadLines_spec env ls _ _).2.1 ds' h']
          simp [hfl]
        · simp only [if_true]
          refine ⟨hf _ _, ?_, ht⟩
          intro ds h
          obtain ⟨ds', rfl, h'⟩ := hm ds h
          rw [(loadLines_spec env ls _ _).2.1 ds' h']
          simp [hfl]
      | _ =>
        simp only
        have hfa : Faulty env (l :: ls) := ⟨l, by rw [e]; simp, fun d h => by rw [hp] at h; cases h⟩
        refine ⟨by simp [hfa], ?_, Or.inl hfa⟩
        intro ds h
        unfold Means at h
        rw [e, List.map_cons, hp] at h
        cases ds with
        | nil => simp at h
        | cons d' ds' => simp at h

end Foxxll.Config
