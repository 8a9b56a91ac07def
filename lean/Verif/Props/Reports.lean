import Verif.Proofs.Reports
/-
C144: scoped reports (`scoped_print_timer`, `scoped_print_iostats`).
-/
namespace Foxxll.Reports

/-- The property fails: a scope that ends in the microsecond in which it began divides by 0 and converts an infinity to an integer, which is undefined; so does one whose
number of bytes per second does not fit into 64 bits. -/
theorem C144_false : run 3 {} [.newTimer 1, .endTimer 0 5] = .ub ∧ run 3 {} [.tick 7, .newStats 1, .endStats 0] = .ub ∧
    run 3 {} [.newTimer (2 ^ 63), .tick 499999, .endTimer 0 0] = .ub ∧ ∃ s, run 3 {} [.newTimer (2 ^ 63), .tick 500001, .endTimer 0 0] = .ok s :=
  ⟨rfl, rfl, rfl, _, rfl⟩

/-- A copy of a `scoped_print_iostats` reports again, also if the original was told with `final_report` not to do so. -/
theorem C144_copy_false : ∃ s, run 0 {} [.newStats 0, .copyStats 0, .finalReport 0, .endStats 0, .endStats 1] = .ok s ∧
    s.log.map (fun l => l.text) = [.starting, .finished 0 none, .finished 0 none] := ⟨_, rfl, rfl⟩

/-- What holds in all programs that do not copy objects and whose calls are defined: every object says once that it starts, when it is constructed; it makes as many
reports as were asked for; and every report has the time since the construction (for a timer with bytes, at least this time: it is read a second time) and the number of
bytes per second rounded down. -/
theorem C144_partial {c : Nat} {ops : List Op} {s : St} (hn : NoCopy ops) (h : run c {} ops = .ok s) :
    (∀ i, (reports s.log i).length = asked ops i) ∧
    (∀ i, i < (made ops).length → ∃ t0, begins s.log i = [⟨i, t0, .starting⟩]) ∧
    (∀ l ∈ s.log, ∀ us rate, l.text = .finished us rate → ∃ t0 m, begins s.log l.obj = [⟨l.obj, t0, .starting⟩] ∧ (made ops)[l.obj]? = some m ∧ t0 ≤ l.at_ ∧
      RateOk m.1 (l.at_ - t0) rate ∧ (l.at_ : Int) - t0 ≤ us ∧ (m.1 = 0 ∨ m.2 = false → us = (l.at_ : Int) - t0)) := by
  have hI := run_inv hn h
  refine ⟨hI.cnt, ?_, hI.val⟩
  intro i hi
  rw [← hI.len] at hi
  obtain ⟨t0, _, e, _⟩ := hI.obj i _ (List.getElem?_eq_getElem hi)
  exact ⟨t0, e⟩

/-- Which calls are undefined: exactly the reports of an object with bytes if no time has passed since its construction, or too little for the rate to fit. -/
theorem C144_ub {c : Nat} {ops : List Op} {s : St} (hn : NoCopy ops) (h : run c {} ops = .ok s) {op : Op} (ho : ∀ i, op ≠ .copyStats i) :
    step c s op = .ub ↔ step c s op ≠ .noObject ∧ ∃ i t0 m, Says ops op i ∧ begins s.log i = [⟨i, t0, .starting⟩] ∧ (made ops)[i]? = some m ∧
      m.1 ≠ 0 ∧ (s.now = t0 ∨ 2 ^ 64 * (s.now - t0) ≤ m.1 * 10 ^ 6) := ub_iff (run_inv hn h) ho

/-- In particular objects without bytes, and objects with at most 2^44 bytes whose scope lasts at least a microsecond, can always report. -/
theorem C144_safe {c : Nat} {ops : List Op} {s : St} (hn : NoCopy ops) (h : run c {} ops = .ok s) {op : Op} (ho : ∀ i, op ≠ .copyStats i)
    (hb : ∀ m ∈ made ops, m.1 ≤ 2 ^ 44) (ht : ∀ l ∈ s.log, l.text = .starting → l.at_ < s.now) : step c s op ≠ .ub := by
  intro e
  obtain ⟨_, i, t0, m, _, e1, e2, e3, e4⟩ := (C144_ub hn h ho).1 e
  have h1 : (⟨i, t0, .starting⟩ : Line) ∈ begins s.log i := by rw [e1]; simp
  have h2 := ht _ (List.mem_filter.1 h1).1 rfl
  have h3 := hb m (List.mem_of_getElem? e2)
  have h2 : t0 < s.now := h2
  omega

/-- A program with both kinds of objects. -/
example : ∃ s, run 3 {} [.newTimer 10, .tick 4, .newStats 6, .tick 3, .report 1, .tick 2, .finalReport 1, .endStats 1, .endTimer 0 2] = .ok s ∧
    s.log.map (fun l => (l.obj, l.text)) = [(0, .starting), (1, .starting), (1, .finished 3 (some 2000000)), (1, .finished 5 (some 1200000)), (0, .finished 11 (some 1111111))] :=
  ⟨_, rfl, rfl⟩

end Foxxll.Reports
