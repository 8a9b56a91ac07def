import Verif.Model.FileBench

namespace Foxxll.FileBench

/-- Write `w` covers byte `a` of disk `d`. -/
def covers (d a : Nat) (w : CWrite) : Bool := decide (w.disk = d ∧ w.offset ≤ a ∧ a < w.offset + w.len)

theorem cwrites_count (nd bs endpos off d a : Nat) : (cwrites nd bs endpos off).countP (covers d a) =
    if d < nd ∧ off ≤ a ∧ a < off + 2 * (min bs (endpos - off) / 2) then 1 else 0 := by
  unfold cwrites
  generalize min bs (endpos - off) / 2 = h
  induction nd with
  | zero => simp
  | succ nd ih =>
    rw [List.range_succ (n := nd), List.flatMap_append, List.countP_append, ih]
    simp only [List.flatMap_cons, List.flatMap_nil, List.append_nil, List.range_succ, List.range_zero, List.nil_append, List.map_cons, List.map_nil,
      List.cons_append, List.countP_cons, List.countP_nil, covers, decide_eq_true_eq]
    by_cases hd : d = nd
    · subst hd
      rw [if_neg (by omega)]
      simp only [true_and, Nat.zero_mul, Nat.one_mul, Nat.add_zero]
      by_cases h1 : off ≤ a ∧ a < off + h
      · rw [if_pos h1, if_neg (by omega), if_pos (by omega)]
      · rw [if_neg h1]
        by_cases h2 : off + h ≤ a ∧ a < off + h + h
        · rw [if_pos h2, if_pos (by omega)]
        · rw [if_neg h2, if_neg (by omega)]
    · have e : ¬ nd = d := fun h' => hd h'.symm
      simp only [e, false_and, if_false, Nat.add_zero]
      by_cases h1 : d < nd ∧ off ≤ a ∧ a < off + 2 * h
      · rw [if_pos h1, if_pos (by omega)]
      · rw [if_neg h1, if_neg (by omega)]

theorem cloop_count (nd bs endpos d a : Nat) (hb : 0 < bs) (he : bs % 2 = 0) : ∀ fuel off, off ≤ endpos → endpos < fuel + off →
    ∃ ws, cloop nd bs endpos fuel off = some ws ∧ ws.countP (covers d a) = (if d < nd ∧ off ≤ a ∧ a < off + 2 * ((endpos - off) / 2) then 1 else 0) ∧
      ∀ w ∈ ws, w.pos + w.len ≤ bs ∧ w.disk < nd ∧ w.offset + w.len ≤ endpos := by
  intro fuel
  induction fuel with
  | zero => intro off h1 h2; omega
  | succ fuel ih =>
    intro off h1 h2
    unfold cloop
    by_cases h : off < endpos
    · obtain ⟨ws, e1, e2, e3⟩ := ih (off + min bs (endpos - off)) (by omega) (by omega)
      refine ⟨cwrites nd bs endpos off ++ ws, by rw [if_pos h, e1]; rfl, ?_, ?_⟩
      · rw [List.countP_append, e2, cwrites_count]
        by_cases hle : bs ≤ endpos - off
        · rw [Nat.min_eq_left hle]
          by_cases hd : d < nd
          · simp only [hd, true_and]
            by_cases h3 : off ≤ a ∧ a < off + 2 * (bs / 2)
            · rw [if_pos h3, if_neg (by omega), if_pos (by omega)]
            · rw [if_neg h3]
              by_cases h4 : off + bs ≤ a ∧ a < off + bs + 2 * ((endpos - (off + bs)) / 2)
              · rw [if_pos h4, if_pos (by omega)]
              · rw [if_neg h4, if_neg (by omega)]
          · simp [hd]
        · rw [Nat.min_eq_right (by omega)]
          rw [if_neg (by omega : ¬ (d < nd ∧ off + (endpos - off) ≤ a ∧ a < off + (endpos - off) + 2 * ((endpos - (off + (endpos - off))) / 2)))]
          rfl
      · intro w hw
        rcases List.mem_append.1 hw with hw | hw
        · unfold cwrites at hw
          obtain ⟨i, hi, hw⟩ := List.mem_flatMap.1 hw
          obtain ⟨j, hj, rfl⟩ := List.mem_map.1 hw
          have hj' := List.mem_range.1 hj
          have : j = 0 ∨ j = 1 := by omega
          rcases this with rfl | rfl
          · simp only; refine ⟨?_, List.mem_range.1 hi, ?_⟩ <;> omega
          · simp only; refine ⟨?_, List.mem_range.1 hi, ?_⟩ <;> omega
        · exact e3 w hw
    · refine ⟨[], by rw [if_neg h], ?_, fun w hw => by cases hw⟩
      rw [if_neg (by omega)]
      rfl

end Foxxll.FileBench
