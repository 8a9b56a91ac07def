import Verif.Proofs.SummaryReport
import Verif.Proofs.SummaryAux
/-
C99, C100: evaluation of the I/O statistics (iostats.cpp).
-/
namespace Foxxll.Summary
open Foxxll.Iostats (FileData)

/-! ### C99: summaries -/

/-- C99 fails for numbers of operations: the sums are computed in `unsigned`.  With `2 ^ 31` reads on each of two
devices, the total is 0 and the median is smaller than the smallest value. -/
theorem C99_false : ¬ ∀ (fs : List FileData) (r : Option (Sum Nat)), fs ≠ [] → Summary (uns (2 ^ 32)) fs (·.readCount) r →
    ∃ s av md, r = some s ∧ s.average = .fin av ∧ s.median = .fin md ∧
      Good (fs.map fun f => (f.readCount : Rat)) (s.total : Rat) (s.min : Rat) (s.max : Rat) av md := by
  intro h
  let fs := [dev 0 (2 ^ 31) 0 0, dev 1 (2 ^ 31) 0 0]
  have hs : Summary (uns (2 ^ 32)) fs (·.readCount) (some (summarize (uns (2 ^ 32)) (fs.map fun f => (f.readCount, f.dev)))) := by
    refine ⟨some _, sorts_self (by decide +kernel) ?_, rfl⟩
    exact weak_val (fun a : Nat => (a : Rat)) (fun a _ c _ => by show decide (a.1 < c.1) = _; simp [Rat.natCast_lt_natCast])
  obtain ⟨s, av, md, h1, h2, h3, h4⟩ := h fs _ (by simp [fs]) hs
  injection h1 with h1
  subst h1
  have h5 := h4.total
  revert h5
  decide +kernel

/-- C99 fails for speeds: a device from which nothing was read has the speed 0/0, which is not comparable with the
others; for a fast, an unused and a slow device the comparison is no strict weak order, as `std::sort` requires. -/
theorem C99_false_speed : ¬ ∀ (fs : List FileData) (r : Option (Sum Dbl)), fs ≠ [] → (∀ f ∈ fs, 0 ≤ f.readTime) →
    Summary dbl fs (speed (·.readBytes) (·.readTime)) r → ∃ s, r = some s := by
  intro h
  let fs := [dev 0 1 200 10, dev 1 0 0 0, dev 2 1 100 10]
  have hs : Summary dbl fs (speed (·.readBytes) (·.readTime)) none := by
    refine ⟨none, ?_, rfl⟩
    rintro ⟨_, _, h3⟩
    have := (h3 (.fin 20, 0) (by decide +kernel) (.nan, 1) (by decide +kernel) (.fin 10, 2) (by decide +kernel)
      (by decide +kernel) (by decide +kernel) (by decide +kernel) (by decide +kernel)).2
    revert this
    decide +kernel
  obtain ⟨s, h1⟩ := h fs none (by simp [fs]) (by decide +kernel) hs
  cases h1

/-- C99 for numbers of operations and of bytes whose sum fits the type: sorting is well-defined, and total, smallest
and greatest value, average and median are right; the list contains every device with its value, ascending. -/
theorem C99_partial {m : Nat} {fs : List FileData} {get : FileData → Nat} {r : Option (Sum Nat)}
    (h : Summary (uns m) fs get r) (h0 : fs ≠ []) (hm : (fs.map get).sum < m) :
    ∃ s av md, r = some s ∧ s.average = .fin av ∧ s.median = .fin md ∧
      Good (fs.map fun f => (get f : Rat)) (s.total : Rat) (s.min : Rat) (s.max : Rat) av md ∧
      s.values.Perm (fs.map fun f => (get f, f.dev)) ∧ s.values.Pairwise (fun a b => a.1 ≤ b.1) := by
  obtain ⟨s, av, md, h1, h2, h3, h4, h5, h6, _⟩ := summary_uns h h0 hm
  exact ⟨s, av, md, h1, h2, h3, h4, h5, h6⟩

/-- Four devices; the median is the middle of the two middle values. -/
example : Summary (uns (2 ^ 32)) [dev 0 7 0 0, dev 1 1 0 0, dev 2 3 0 0, dev 3 10 0 0] (·.readCount)
    (some ⟨21, 1, 10, .fin (21 / 4), .fin 5, [(1, 1), (3, 2), (7, 0), (10, 3)]⟩) := by
  refine ⟨some [(1, 1), (3, 2), (7, 0), (10, 3)], ⟨?_, by decide +kernel, by decide +kernel⟩, by decide +kernel⟩
  exact weak_val (fun a : Nat => (a : Rat)) (fun a _ c _ => by show decide (a.1 < c.1) = _; simp [Rat.natCast_lt_natCast])

/-- The total of a summary, and the total of `fetch_sum`, is the sum modulo the range of the type. -/
theorem C99_total {m : Nat} (hm : 0 < m) {fs : List FileData} {get : FileData → Nat} {r : Option (Sum Nat)} (h : Summary (uns m) fs get r) :
    ∃ s, r = some s ∧ s.total = (fs.map get).sum % m ∧ fetchSum m fs get = (fs.map get).sum % m := by
  have hacc : ∀ l : List Nat, accumulate (uns m) l = l.sum % m := by
    intro l
    rw [← Nat.mod_eq_of_lt (accumulate_lt hm l)]
    exact accumulate_uns m l
  obtain ⟨k, hk, _, e⟩ := load_files h
  refine ⟨_, e, ?_, hacc _⟩
  have e2 : (summarize (uns m) (k.map fun f => (get f, f.dev))).total = (k.map get).sum % m := by
    cases k with
    | nil => rw [List.map_nil, List.map_nil, List.sum_nil, Nat.zero_mod]; rfl
    | cons f k =>
      show accumulate (uns m) (((f :: k).map fun f => (get f, f.dev)).map (·.1)) = _
      rw [hacc, List.map_map]; rfl
  rw [e2, (hk.map get).sum_nat]

/-- C99 for speeds of devices that were all used: they are bytes divided by time. -/
theorem C99_speed_partial {fs : List FileData} {bytes : FileData → Nat} {time : FileData → Int} {r : Option (Sum Dbl)}
    (h : Summary dbl fs (speed bytes time) r) (h0 : fs ≠ []) (ht : ∀ f ∈ fs, 0 < time f) :
    ∃ s t mn mx av md, r = some s ∧ s.total = .fin t ∧ s.min = .fin mn ∧ s.max = .fin mx ∧ s.average = .fin av ∧ s.median = .fin md ∧
      Good (fs.map fun f => (bytes f : Rat) / (time f : Rat)) t mn mx av md ∧
      s.values.Perm (fs.map fun f => (.fin ((bytes f : Rat) / (time f : Rat)), f.dev)) := by
  have hv : ∀ f ∈ fs, speed bytes time f = .fin ((bytes f : Rat) / (time f : Rat)) := fun f hf => pspeed_pos (b := bytes) (ht f hf) f
  obtain ⟨s, t, mn, mx, av, md, h1, h2, h3, h4, h5, h6, h7, h8, _⟩ := summary_dbl h h0 _ hv
  refine ⟨s, t, mn, mx, av, md, h1, h2, h3, h4, h5, h6, h7, ?_⟩
  have : (fs.map fun f => (speed bytes time f, f.dev)) = fs.map fun f => (.fin ((bytes f : Rat) / (time f : Rat)), f.dev) :=
    List.map_congr_left fun f hf => by rw [hv f hf]
  rw [← this]; exact h8

example : speed (·.readBytes) (·.readTime) (dev 0 1 100 10) = .fin 10 ∧ 0 < (dev 0 1 100 10).readTime := by decide +kernel

/-- No devices: all values are NaN, for integers 0. -/
theorem C99_empty {α : Type} (N : Num α) (get : FileData → α) {r : Option (Sum α)} (h : Summary N [] get r) :
    r = some ⟨N.nan, N.nan, N.nan, N.toDbl N.nan, N.toDbl N.nan, []⟩ := by
  obtain ⟨v, hv, hr⟩ := h
  cases v with
  | none => exact absurd ⟨fun a ha => by simp at ha, fun a ha => by simp at ha, fun a ha => by simp at ha⟩ hv
  | some v =>
    have : v = [] := List.perm_nil.1 hv.2.1
    subst this
    exact hr

example : Summary (uns (2 ^ 32)) [] (·.readCount) (some ⟨0, 0, 0, .fin 0, .fin 0, []⟩) :=
  ⟨some [], sorts_self .nil ⟨fun a ha => by simp at ha, fun a ha => by simp at ha, fun a ha => by simp at ha⟩, by decide +kernel⟩

/-! ### C100: warnings -/

/-- C100 fails: the devices are not judged by their speed but by their share of the data.  From device 1, 100 bytes were
read in 1000 units of time, from device 2, 10 bytes in 10 units of time; the warning names device 2 as slow when reading,
which is the faster one, and a device as slow when writing, though nothing was written. -/
theorem C100_false : ¬ ∀ (fs : List FileData) (pr pw pio : Int) (io rd wr : Sum Dbl) (l l' : List Nat),
    Summary dbl fs (pspeed bothBytes pio) (some io) → Summary dbl fs (pspeed (·.readBytes) pr) (some rd) → Summary dbl fs (pspeed (·.writeBytes) pw) (some wr) →
    slowReport io rd wr = some (some (l, l')) →
    (∀ f ∈ fs, f.dev ∈ l → ∃ g ∈ fs, (speed (·.readBytes) (·.readTime) f).lt (speed (·.readBytes) (·.readTime) g) = true) ∧
    (∀ f ∈ fs, f.dev ∈ l' → 0 < f.writeBytes ∨ ∃ g ∈ fs, 0 < g.writeBytes) := by
  intro h
  let fs := [dev 2 1 10 10, dev 1 1 100 1000]
  have := (h fs 1000 0 1000 _ _ _ [2] [2] (pspeed_summary (by decide) (by decide +kernel)) (pspeed_summary (by decide) (by decide +kernel))
    (pspeed_summary (by decide) (by decide +kernel)) (by decide +kernel)).1 (dev 2 1 10 10) (by simp [fs]) (by simp [dev])
  revert this
  decide +kernel

/-- The same with the other half of the claim: a device is named as slow when writing though nothing was written. -/
theorem C100_false_writing : ∃ (fs : List FileData) (io rd wr : Sum Dbl) (l l' : List Nat),
    Summary dbl fs (pspeed bothBytes 1000) (some io) ∧ Summary dbl fs (pspeed (·.readBytes) 1000) (some rd) ∧ Summary dbl fs (pspeed (·.writeBytes) 0) (some wr) ∧
    slowReport io rd wr = some (some (l, l')) ∧ l' ≠ [] ∧ ∀ f ∈ fs, f.writeCount = 0 ∧ f.writeBytes = 0 :=
  ⟨[dev 2 1 10 10, dev 1 1 100 1000], _, _, _, [2], [2], pspeed_summary (by decide) (by decide +kernel), pspeed_summary (by decide) (by decide +kernel),
    pspeed_summary (by decide) (by decide +kernel), by decide +kernel, by decide, by decide +kernel⟩

/-- C100: sorting is always well-defined here and the loops of the report never leave the list.  There is a warning iff
for reading, writing or both (in parallel time that is not 0) some device transferred less than half of what another did;
for reading and for writing it names a device with the least data and all others with less than half of the most. -/
theorem C100_partial {fs : List FileData} {pr pw pio : Int} (hr : 0 ≤ pr) (hw : 0 ≤ pw) (hio : 0 ≤ pio)
    (hb : ∀ f ∈ fs, f.readBytes + f.writeBytes < 2 ^ 64) {r1 r2 r3 : Option (Sum Dbl)}
    (h1 : Summary dbl fs (pspeed bothBytes pio) r1) (h2 : Summary dbl fs (pspeed (·.readBytes) pr) r2) (h3 : Summary dbl fs (pspeed (·.writeBytes) pw) r3) :
    ∃ io rd wr rep, r1 = some io ∧ r2 = some rd ∧ r3 = some wr ∧ slowReport io rd wr = some rep ∧
      (rep ≠ none ↔ (0 < pio ∧ Uneven fs fun f => f.readBytes + f.writeBytes) ∨ (0 < pr ∧ Uneven fs (·.readBytes)) ∨ (0 < pw ∧ Uneven fs (·.writeBytes))) ∧
      ∀ l l', rep = some (l, l') → Names fs (·.readBytes) pr l ∧ Names fs (·.writeBytes) pw l' := by
  obtain ⟨io, rd, wr, rep, e1, e2, e3, e4, e5, e6⟩ := slow_report hio hr hw h1 h2 h3
  refine ⟨io, rd, wr, rep, e1, e2, e3, e4, ?_, e6⟩
  have hu : Uneven fs bothBytes ↔ Uneven fs fun f => f.readBytes + f.writeBytes := by
    unfold Uneven bothBytes
    constructor
    · rintro ⟨f, hf, g, hg, h⟩
      rw [Nat.mod_eq_of_lt (hb f hf), Nat.mod_eq_of_lt (hb g hg)] at h
      exact ⟨f, hf, g, hg, h⟩
    · rintro ⟨f, hf, g, hg, h⟩
      refine ⟨f, hf, g, hg, ?_⟩
      rw [Nat.mod_eq_of_lt (hb f hf), Nat.mod_eq_of_lt (hb g hg)]
      exact h
  rw [e5, hu]

/-- Four devices; two of them read less than half of the most. -/
example : (∀ f ∈ [dev 4 1 10 1, dev 2 1 30 1, dev 3 1 60 1, dev 1 1 100 1], f.readBytes + f.writeBytes < 2 ^ 64) ∧
    slowReport (summarize dbl ([dev 4 1 10 1, dev 2 1 30 1, dev 3 1 60 1, dev 1 1 100 1].map fun f => (pspeed bothBytes 5 f, f.dev)))
      (summarize dbl ([dev 4 1 10 1, dev 2 1 30 1, dev 3 1 60 1, dev 1 1 100 1].map fun f => (pspeed (·.readBytes) 5 f, f.dev)))
      (summarize dbl ([dev 4 1 10 1, dev 2 1 30 1, dev 3 1 60 1, dev 1 1 100 1].map fun f => (pspeed (·.writeBytes) 0 f, f.dev))) =
    some (some ([4, 2], [4])) := by decide +kernel

/-- The warning of bad load balancing: the lists are never empty when it is printed; there is a warning iff some device
read (wrote) less than half of what another one did; it names devices with the least and the most. -/
theorem C100_load {m : Nat} {fs : List FileData} {r1 r2 : Option (Sum Nat)}
    (h1 : Summary (uns m) fs (·.readBytes) r1) (h2 : Summary (uns m) fs (·.writeBytes) r2) :
    ∃ rd wr rep, r1 = some rd ∧ r2 = some wr ∧ loadReport rd wr = some rep ∧
      (rep ≠ none ↔ Uneven fs (·.readBytes) ∨ Uneven fs (·.writeBytes)) ∧
      ∀ a b c d, rep = some ((a, b), (c, d)) →
        (∃ f ∈ fs, ∃ g ∈ fs, (∀ x ∈ fs, f.readBytes ≤ x.readBytes ∧ x.readBytes ≤ g.readBytes) ∧ a = f.dev ∧ b = g.dev) ∧
        (∃ f ∈ fs, ∃ g ∈ fs, (∀ x ∈ fs, f.writeBytes ≤ x.writeBytes ∧ x.writeBytes ≤ g.writeBytes) ∧ c = f.dev ∧ d = g.dev) := by
  obtain ⟨rd, wr, rep, e1, e2, e3, e4, e5⟩ := load_report h1 h2
  refine ⟨rd, wr, rep, e1, e2, e3, e4, ?_⟩
  intro a b c d e
  obtain ⟨⟨f, hf, g, hg, h, e6⟩, ⟨f', hf', g', hg', h', e7⟩⟩ := e5 _ _ e
  injection e6 with e8 e9
  injection e7 with e10 e11
  exact ⟨⟨f, hf, g, hg, h, e8, e9⟩, ⟨f', hf', g', hg', h', e10, e11⟩⟩

example : loadReport (summarize (uns (2 ^ 64)) ([dev 4 1 10 1, dev 3 1 60 1, dev 1 1 100 1].map fun f => (f.readBytes, f.dev)))
    (summarize (uns (2 ^ 64)) ([dev 4 1 10 1, dev 3 1 60 1, dev 1 1 100 1].map fun f => (f.writeBytes, f.dev))) =
    some (some ((4, 1), (4, 1))) := by decide +kernel

end Foxxll.Summary
