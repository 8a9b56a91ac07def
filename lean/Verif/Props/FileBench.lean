/-
Properties C102, C103 and C104 of the tools `benchmark_files` and `create_files`.
-/
import Verif.Proofs.FileBenchRun
import Verif.Proofs.FileBenchCreate

namespace Foxxll.FileBench

/-! ### C102: the verification is right

In full: with the operations `wv`, an error is reported if and only if a word read differs from the word written to
its place. -/

/-- The default operations on files of one sector per step. -/
def oneSector (nfiles : Nat) : Cfg :=
  { nfiles, blockInt := 128, batch := 1, pattern := 0, doWrite := true, doRead := false, doVerify := true }

/-- **C102 fails** beyond 2 TiB: what is read is what was written, but the sector number read (32 bits) is compared with
the full one. -/
theorem C102_false_far : ∃ out, Faithful out ∧ ∃ st, benchmark (oneSector 1) out (2 ^ 41) 512 (fun _ _ => 0) = some st ∧ st.failed = true :=
  ⟨fun _ _ _ => none, fun _ _ _ => rfl, after (oneSector 1) (fun _ _ _ => none) (2 ^ 41) (fun _ _ => 0) 1,
    benchmark_after (by decide) 512, by decide +kernel⟩

/-- Steps of 256 bytes. -/
def halfSector : Cfg :=
  { nfiles := 1, blockInt := 64, batch := 1, pattern := 0, doWrite := true, doRead := false, doVerify := true }

/-- **C102 fails** for steps that end in the second part of a sector: the sector number is written there, but the
pattern is looked for. -/
theorem C102_false_sector : ∃ out, Faithful out ∧ ∃ st, benchmark halfSector out 0 256 (fun _ _ => 0) = some st ∧ st.failed = true :=
  ⟨fun _ _ _ => none, fun _ _ _ => rfl, after halfSector (fun _ _ _ => none) 0 (fun _ _ => 0) 1, benchmark_after (by decide) 256, by decide +kernel⟩

/-- **C102 fails** there in the other direction, too: a wrong word is not found. -/
theorem C102_false_hidden : ∃ out, Words out ∧ ∃ st, benchmark halfSector out 0 256 (fun _ _ => 0) = some st ∧
    out 0 0 168 ≠ none ∧ out 0 0 168 ≠ some (st.med 0 168) ∧ st.failed = false := by
  refine ⟨fun n f a => if n = 0 ∧ f = 0 ∧ a = 168 then some 42 else none, ?_,
    after halfSector (fun n f a => if n = 0 ∧ f = 0 ∧ a = 168 then some 42 else none) 0 (fun _ _ => 0) 1, benchmark_after (by decide) 256, ?_, ?_, ?_⟩
  · intro n f a w h
    simp only at h
    split at h
    · injection h with h; omega
    · cases h
  · decide
  · decide +kernel
  · decide +kernel

/-- **C102 fails** after an error: the wrong word stays in the buffer, is written in the next step, and is reported
there again although it is read as it was written. -/
theorem C102_false_again : ∃ out, Words out ∧ (∀ f a, out 1 f a = none) ∧ ∃ st, benchmark (oneSector 1) out 0 1024 (fun _ _ => 0) = some st ∧
    Report.word 0 532 ∈ st.log := by
  refine ⟨fun n f a => if n = 0 ∧ f = 0 ∧ a = 20 then some 7 else none, ?_, ?_,
    after (oneSector 1) (fun n f a => if n = 0 ∧ f = 0 ∧ a = 20 then some 7 else none) 0 (fun _ _ => 0) 2, benchmark_after (by decide) 1024, ?_⟩
  · intro n f a w h
    simp only at h
    split at h
    · injection h with h; omega
    · cases h
  · intro f a
    exact if_neg (by omega)
  · decide +kernel

/-- **C102 fails** for several files: an error in the first word of a file is not reported if there is one in the file in
front of it ("jump to next" and the increment of the loop). -/
theorem C102_false_skipped : ∃ out, Words out ∧ out 0 1 0 = some 7 ∧ ∃ st, benchmark (oneSector 2) out 0 512 (fun _ _ => 0) = some st ∧
    st.med 1 0 = 128 ∧ st.log = [.word 0 20] := by
  refine ⟨fun n f a => if n = 0 ∧ ((f = 0 ∧ a = 20) ∨ (f = 1 ∧ a = 0)) then some 7 else none, ?_, by decide,
    after (oneSector 2) (fun n f a => if n = 0 ∧ ((f = 0 ∧ a = 20) ∨ (f = 1 ∧ a = 0)) then some 7 else none) 0 (fun _ _ => 0) 1, benchmark_after (by decide) 512, ?_, ?_⟩
  · intro n f a w h
    simp only at h
    split at h
    · injection h with h; omega
    · cases h
  · decide +kernel
  · decide +kernel

/-- **C102**, partial: no false alarm up to 2 TiB and with less than 16 GiB memory, if no step ends between a sector number
and the end of its sector. -/
theorem C102_partial (c : Cfg) (hw : c.doWrite = true) (hv : c.doVerify = true) (hc : Whole c) (hs : Small c) (hb : 0 < c.blockInt) (hn : 0 < c.batch)
    (out : Nat → Nat → Nat → Option Nat) (hf : Faithful out) (offset length : Nat) (hl : offset + length ≤ 2 ^ 41) (med : Nat → Nat → Nat) :
    ∃ st, benchmark c out offset length med = some st ∧ st.failed = false ∧ st.log = [] := by
  have hstep : 0 < c.step := by rw [step_eq, stepInt_eq]; have := Nat.mul_pos hb hn; omega
  refine ⟨_, benchmark_after hstep length, ?_⟩
  apply no_alarm hb hw hv hc hs hf
  have := Nat.div_mul_le_self length c.step
  omega

/-- **C102**, partial: errors are found, if no step ends between a sector number and the end of its sector: whenever a word
read differs from what was written to its place in this step, the tool fails. -/
theorem C102_detects_partial (c : Cfg) (hw : c.doWrite = true) (hv : c.doVerify = true) (hc : Whole c) (hb : 0 < c.blockInt) (hn : 0 < c.batch)
    (out : Nat → Nat → Nat → Option Nat) (hwo : Words out) (offset length : Nat) (med : Nat → Nat → Nat)
    (n f p : Nat) (h1 : n < length / c.step) (h2 : f < c.nfiles) (h3 : p < c.stepInt) (w : Nat) (hout : out n f (offset + n * c.step + 4 * p) = some w)
    (hne : w ≠ (after c out offset med (n + 1)).med f (offset + n * c.step + 4 * p)) :
    ∃ st, benchmark c out offset length med = some st ∧ st.failed = true := by
  have hstep : 0 < c.step := by rw [step_eq, stepInt_eq]; have := Nat.mul_pos hb hn; omega
  refine ⟨_, benchmark_after hstep length, ?_⟩
  rw [← Bool.not_eq_false]
  intro hf
  exact hne (detects hb hw hv hc hwo n (failed_mono h1 hf) f p h2 h3 w hout)

/-- **C102**, what is in the files afterwards: the pattern with the sector numbers, after writing only and after writing and
verifying without errors. -/
theorem C102_content (c : Cfg) (hw : c.doWrite = true) (hm : c.doVerify = true ∨ (c.doRead = false ∧ c.doVerify = false)) (hs : Small c) (hb : 0 < c.blockInt) (hn : 0 < c.batch)
    (out : Nat → Nat → Nat → Option Nat) (offset length : Nat) (med : Nat → Nat → Nat) :
    ∃ st, benchmark c out offset length med = some st ∧ (st.failed = false → ∀ n f p, n < length / c.step → f < c.nfiles → p < c.stepInt →
      st.med f (offset + n * c.step + 4 * p) = content c (offset + n * c.step) f p) := by
  have hstep : 0 < c.step := by rw [step_eq, stepInt_eq]; have := Nat.mul_pos hb hn; omega
  exact ⟨_, benchmark_after hstep length, fun hf n f p => written hb hw hs hm _ hf n f p⟩

/-- **C102** for verification only: the tool fails unless all words read are the pattern, with the numbers of the whole sectors. -/
theorem C102_verify (c : Cfg) (hw : c.doWrite = false) (hv : c.doVerify = true) (hs : Small c) (hb : 0 < c.blockInt) (hn : 0 < c.batch)
    (out : Nat → Nat → Nat → Option Nat) (offset length : Nat) (med : Nat → Nat → Nat) :
    ∃ st, benchmark c out offset length med = some st ∧ (st.failed = false ↔ ∀ n f p, n < length / c.step → f < c.nfiles → p < c.stepInt →
      (out n f (offset + n * c.step + 4 * p)).getD (med f (offset + n * c.step + 4 * p)) =
        if p % 128 = 42 ∧ p / 128 < c.stepInt / 128 then (offset + n * c.step) / 512 + p / 128
        else if c.pattern ≠ 0 then c.pattern else c.stepInt * f + p) := by
  have hstep : 0 < c.step := by rw [step_eq, stepInt_eq]; have := Nat.mul_pos hb hn; omega
  exact ⟨_, benchmark_after hstep length, verify_only hb hw hv hs _⟩

/-- **C102** over two runs: files written by one run are verified by another one with the same parameters. -/
theorem C102_later_partial (c : Cfg) (hw : c.doWrite = true) (hr : c.doRead = false) (hv : c.doVerify = false) (hc : Whole c) (hs : Small c) (hb : 0 < c.blockInt) (hn : 0 < c.batch)
    (out out' : Nat → Nat → Nat → Option Nat) (hf : Faithful out') (offset length : Nat) (hl : offset + length ≤ 2 ^ 41) (med : Nat → Nat → Nat) :
    ∃ st st', benchmark c out offset length med = some st ∧
      benchmark { c with doWrite := false, doVerify := true } out' offset length st.med = some st' ∧ st'.failed = false := by
  obtain ⟨st, h1, h2⟩ := C102_content c hw (Or.inr ⟨hr, hv⟩) hs hb hn out offset length med
  obtain ⟨st', h3, h4⟩ := C102_verify { c with doWrite := false, doVerify := true } rfl rfl hs hb hn out' offset length st.med
  refine ⟨st, st', h1, h3, h4.2 ?_⟩
  have hstep : 0 < c.step := by rw [step_eq, stepInt_eq]; have := Nat.mul_pos hb hn; omega
  have hfail : st.failed = false := by
    have e := benchmark_after (c := c) (out := out) (off := offset) (med := med) hstep length
    rw [h1] at e
    injection e with e
    rw [e]
    have hnf : ∀ n, (after c out offset med n).failed = false := by
      intro n
      induction n with
      | zero => rfl
      | succ n ih =>
        show (stepOnce c (out n) (after c out offset med n)).failed = false
        unfold stepOnce verifyStep
        rw [if_neg (by simp [hv])]
        simp only
        rw [read_failed, write_failed, ih]
    exact hnf _
  intro n f p h5 h6 h7
  show (out' n f (offset + n * c.step + 4 * p)).getD (st.med f (offset + n * c.step + 4 * p)) =
        if p % 128 = 42 ∧ p / 128 < c.stepInt / 128 then (offset + n * c.step) / 512 + p / 128
        else if c.pattern ≠ 0 then c.pattern else c.stepInt * f + p
  have h5' : n < length / c.step := h5
  have h7' : p < c.stepInt := h7
  rw [hf, Option.getD_none, h2 hfail n f p h5 h6 h7]
  unfold content Whole at *
  by_cases h : p % 128 = 42
  · rw [if_pos h, if_pos (by omega)]
    apply Nat.mod_eq_of_lt
    have h8 : (n + 1) * c.step ≤ length := (Nat.le_div_iff_mul_le hstep).1 h5'
    rw [Nat.add_mul, Nat.one_mul] at h8
    have := step_eq c
    omega
  · rw [if_neg h, if_neg (fun h' : p % 128 = 42 ∧ p / 128 < c.stepInt / 128 => h h'.1)]

/-- **C102**, what is reported by the first step with errors: exactly the sectors with wrong number, and only words that are wrong. -/
theorem C102_reports_partial (c : Cfg) (hv : c.doVerify = true) (hs : Small c) (hb : 0 < c.blockInt)
    (out : Nat → Nat → Nat → Option Nat) (offset : Nat) (med : Nat → Nat → Nat) (n : Nat) (hlog : (after c out offset med n).log = []) :
    (∀ f b, Report.sector f b ∈ (after c out offset med (n + 1)).log ↔ f < c.nfiles ∧ ∃ s, s < c.stepInt / 128 ∧ b = (offset + n * c.step) / 512 + s ∧
      (out n f (offset + n * c.step + 4 * (128 * s + 42))).getD ((after c out offset med (n + 1)).med f (offset + n * c.step + 4 * (128 * s + 42))) ≠ b) ∧
    (∀ f a, Report.word f a ∈ (after c out offset med (n + 1)).log → f < c.nfiles ∧ ∃ p, p < c.stepInt ∧ a = offset + n * c.step + 4 * p ∧
      (out n f a).getD ((after c out offset med (n + 1)).med f a) ≠ if c.pattern ≠ 0 then c.pattern else c.stepInt * f + p) := by
  have h1 := (step_verify hv (out n) (after c out offset med n)).1
  rw [hlog, List.nil_append, after_offset] at h1
  have hm : (after c out offset med (n + 1)).med = medAfter c (after c out offset med n) := step_med _ _
  have hlog' : (after c out offset med (n + 1)).log = messages c (offset + n * c.step) (bufRead c (out n) (after c out offset med n)) := h1
  have hbuf : ∀ f p, f < c.nfiles → p < c.stepInt → bufRead c (out n) (after c out offset med n) (c.stepInt * f + p) =
      (out n f (offset + n * c.step + 4 * p)).getD ((after c out offset med (n + 1)).med f (offset + n * c.step + 4 * p)) := by
    intro f p hf hp
    rw [bufRead_at hb (by simp [hv]) _ _ hf hp, after_offset, hm]; rfl
  rw [hlog']
  unfold messages
  constructor
  · intro f b
    rw [List.mem_append, sector_messages]
    constructor
    · rintro (h | h)
      · obtain ⟨ds, h2, h3⟩ := List.mem_map.1 h
        obtain ⟨h4, h5⟩ := List.mem_filter.1 h2
        injection h3 with h3 h3'
        obtain ⟨h6, h7⟩ := (mem_sectors c ds).1 h4
        subst h3 h3'
        refine ⟨h6, ds.2, h7, rfl, ?_⟩
        simp only [decide_eq_true_eq] at h5
        have e : idx c ds = c.stepInt * ds.1 + (128 * ds.2 + 42) := by unfold idx; rw [Nat.mul_comm ds.1, Nat.mul_comm ds.2]; omega
        rw [e, hbuf _ _ h6 (by omega)] at h5
        exact h5
      · obtain ⟨_, _, _, _, h2, _⟩ := checkWords_mem c _ _ _ _ _ h
        cases h2
    · rintro ⟨h2, s, h3, h4, h5⟩
      left
      refine List.mem_map.2 ⟨(f, s), List.mem_filter.2 ⟨(mem_sectors c _).2 ⟨h2, h3⟩, ?_⟩, by rw [h4]⟩
      have e : idx c (f, s) = c.stepInt * f + (128 * s + 42) := by unfold idx; simp only; rw [Nat.mul_comm f, Nat.mul_comm s]; omega
      simp only [decide_eq_true_eq]
      rw [e, hbuf _ _ h2 (by omega)]
      rw [h4] at h5
      exact h5
  · intro f a h
    rw [List.mem_append, sector_messages] at h
    rcases h with h | h
    · obtain ⟨_, _, h3⟩ := List.mem_map.1 h
      cases h3
    · obtain ⟨f', p, h2, h3, h4, h5⟩ := checkWords_mem c _ _ _ _ _ h
      injection h4 with h4 h4'
      subst h4 h4'
      refine ⟨h2, p, h3, by omega, ?_⟩
      rw [checked_at c _ _ h2 h3] at h5
      split at h5
      · exact absurd (pat_eq hs (index_lt h2 h3)) h5
      · rw [hbuf _ _ h2 h3, Nat.mul_comm 4 p] at h5
        exact h5

/-- Two files, steps of two blocks of 1024 bytes: the hypotheses hold, and four steps of 2048 bytes are made for 8500 bytes. -/
example : let c : Cfg := { nfiles := 2, blockInt := 256, batch := 2, pattern := 0, doWrite := true, doRead := false, doVerify := true }
    Whole c ∧ Small c ∧ 8500 / c.step = 4 := by
  refine ⟨by unfold Whole; decide, Or.inr (by decide), by decide⟩

/-- A wrong word is found. -/
example : (after (oneSector 2) (fun n f a => if n = 1 ∧ f = 1 ∧ a = 700 then some 7 else none) 0 (fun _ _ => 0) 2).log = [.word 1 700] := by decide +kernel

/-! ### C103: the whole range is tested

In full: `benchmark_files` writes every word of the given range. -/

/-- **C103 fails**: what is left over from the last whole step is not written. -/
theorem C103_false : ∃ (out : Nat → Nat → Nat → Option Nat) (st : St), benchmark (oneSector 1) out 0 1000 (fun _ _ => 5) = some st ∧ st.med 0 600 = 5 ∧ st.offset = 512 :=
  ⟨fun _ _ _ => none, after (oneSector 1) (fun _ _ _ => none) 0 (fun _ _ => 5) 1, benchmark_after (by decide) 1000, by decide +kernel, by decide +kernel⟩

/-- **C103**, partial: the whole range is processed if its length is a multiple of the step; in any case all whole steps are, and
nothing else is changed in the files. -/
theorem C103_partial (c : Cfg) (hb : 0 < c.blockInt) (hn : 0 < c.batch) (out : Nat → Nat → Nat → Option Nat) (offset length : Nat) (med : Nat → Nat → Nat) :
    ∃ st, benchmark c out offset length med = some st ∧ st.offset = offset + length - length % c.step ∧
      (∀ f a, a < offset ∨ offset + length - length % c.step ≤ a ∨ c.nfiles ≤ f → st.med f a = med f a) ∧
      (length % c.step = 0 → st.offset = offset + length) := by
  have hstep : 0 < c.step := by rw [step_eq, stepInt_eq]; have := Nat.mul_pos hb hn; omega
  have e : length / c.step * c.step + length % c.step = length := Nat.div_add_mod' length c.step
  refine ⟨_, benchmark_after hstep length, ?_, ?_, ?_⟩
  · rw [after_offset]; omega
  · intro f a h
    exact untouched hb _ (by omega)
  · intro h; rw [after_offset]; omega

example : (oneSector 3).step = 512 ∧ 1024 % (oneSector 3).step = 0 := by decide

/-! ### C104: created files have the requested size

In full: `create_files` writes every byte of each file exactly once, and the files have the given length. -/

/-- **C104 fails** for odd lengths: the last byte is missing. -/
theorem C104_false : ∃ ws, create 1 (256 * 1024 * 1024) 3 = some ws ∧ ∀ w ∈ ws, ¬ (w.disk = 0 ∧ w.offset ≤ 2 ∧ 2 < w.offset + w.len) :=
  ⟨[⟨0, 0, 0, 1⟩, ⟨0, 128 * 1024 * 1024, 1, 1⟩], by decide +kernel, by decide⟩

/-- **C104**, partial: every byte except the last one of an odd length is written exactly once, from within the part of the buffer
for the disk, and nothing is written behind the end. -/
theorem C104_partial (nd bs length : Nat) (hb : 0 < bs) (he : bs % 2 = 0) :
    ∃ ws, create nd bs length = some ws ∧
      (∀ d a, (ws.filter fun w => decide (w.disk = d ∧ w.offset ≤ a ∧ a < w.offset + w.len)).length = if d < nd ∧ a < length - length % 2 then 1 else 0) ∧
      (∀ w ∈ ws, w.disk < nd ∧ w.pos + w.len ≤ bs ∧ w.offset + w.len ≤ length) := by
  obtain ⟨ws, h1, _, h3⟩ := cloop_count nd bs length 0 0 hb he (length + 1) 0 (Nat.zero_le _) (by omega)
  refine ⟨ws, h1, ?_, fun w hw => ⟨(h3 w hw).2.1, (h3 w hw).1, (h3 w hw).2.2⟩⟩
  intro d a
  obtain ⟨ws', h1', h2', _⟩ := cloop_count nd bs length d a hb he (length + 1) 0 (Nat.zero_le _) (by omega)
  rw [h1] at h1'
  injection h1' with h1'
  subst h1'
  rw [← List.countP_eq_length_filter]
  refine Eq.trans h2' ?_
  by_cases h : d < nd ∧ a < length - length % 2
  · rw [if_pos h, if_pos (by omega)]
  · rw [if_neg h, if_neg (by omega)]

example : create 2 8 10 = some [⟨0, 0, 0, 4⟩, ⟨0, 4, 4, 4⟩, ⟨1, 0, 0, 4⟩, ⟨1, 4, 4, 4⟩, ⟨0, 0, 8, 1⟩, ⟨0, 4, 9, 1⟩, ⟨1, 0, 8, 1⟩, ⟨1, 4, 9, 1⟩] := by decide +kernel

end Foxxll.FileBench
