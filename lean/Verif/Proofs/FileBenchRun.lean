import Verif.Proofs.FileBench
import Verif.Spec.FileBench

namespace Foxxll.FileBench

variable {c : Cfg} {out : Nat → Nat → Nat → Option Nat} {off : Nat} {med : Nat → Nat → Nat}

/-- The file contents after the write part of step `n`. -/
def medAfter (c : Cfg) (st : St) : Nat → Nat → Nat := (writeStep c st).med

/-- The buffer after the read part. -/
def bufRead (c : Cfg) (out : Nat → Nat → Option Nat) (st : St) : Nat → Nat := (readStep c out (writeStep c st)).buf

theorem write_offset (st : St) : (writeStep c st).offset = st.offset := by unfold writeStep; split <;> rfl
theorem write_failed (st : St) : (writeStep c st).failed = st.failed := by unfold writeStep; split <;> rfl
theorem write_log (st : St) : (writeStep c st).log = st.log := by unfold writeStep; split <;> rfl
theorem read_offset (o : Nat → Nat → Option Nat) (st : St) : (readStep c o st).offset = st.offset := by unfold readStep; split <;> rfl
theorem read_failed (o : Nat → Nat → Option Nat) (st : St) : (readStep c o st).failed = st.failed := by unfold readStep; split <;> rfl
theorem read_log (o : Nat → Nat → Option Nat) (st : St) : (readStep c o st).log = st.log := by unfold readStep; split <;> rfl
theorem read_med (o : Nat → Nat → Option Nat) (st : St) : (readStep c o st).med = st.med := by unfold readStep; split <;> rfl
theorem verify_offset (st : St) : (verifyStep c st).offset = st.offset := by unfold verifyStep; split <;> rfl
theorem verify_med (st : St) : (verifyStep c st).med = st.med := by unfold verifyStep; split <;> rfl

theorem step_offset (o : Nat → Nat → Option Nat) (st : St) : (stepOnce c o st).offset = st.offset + c.step := by
  show (verifyStep c _).offset + _ = _
  rw [verify_offset, read_offset, write_offset]

theorem step_med (o : Nat → Nat → Option Nat) (st : St) : (stepOnce c o st).med = medAfter c st := by
  show (verifyStep c _).med = _
  rw [verify_med, read_med]; rfl

theorem step_verify (hv : c.doVerify = true) (o : Nat → Nat → Option Nat) (st : St) :
    (stepOnce c o st).log = st.log ++ messages c st.offset (bufRead c o st) ∧
    (stepOnce c o st).failed = (st.failed || !(messages c st.offset (bufRead c o st)).isEmpty) ∧
    (stepOnce c o st).buf = (checkSectors c st.offset (bufRead c o st)).1 := by
  have e : (readStep c o (writeStep c st)).offset = st.offset := by rw [read_offset, write_offset]
  have e2 : (readStep c o (writeStep c st)).failed = st.failed := by rw [read_failed, write_failed]
  have e3 : (readStep c o (writeStep c st)).log = st.log := by rw [read_log, write_log]
  unfold stepOnce verifyStep
  rw [if_pos hv]
  simp only [e, e2, e3]
  exact ⟨rfl, rfl, rfl⟩

theorem bufRead_at (hb : 0 < c.blockInt) (hr : (c.doRead || c.doVerify) = true) (o : Nat → Nat → Option Nat) (st : St) {f p : Nat} (hf : f < c.nfiles) (hp : p < c.stepInt) :
    bufRead c o st (c.stepInt * f + p) = returned o (medAfter c st) f (st.offset + 4 * p) := by
  unfold bufRead readStep
  rw [if_pos hr]
  simp only
  rw [read_spec hb _ _ _ hf hp, write_offset]; rfl

theorem medAfter_at (hb : 0 < c.blockInt) (hw : c.doWrite = true) (st : St) {f p : Nat} (hf : f < c.nfiles) (hp : p < c.stepInt) :
    medAfter c st f (st.offset + 4 * p) = if p % 128 = 42 then (st.offset / 512 + p / 128) % W else st.buf (c.stepInt * f + p) := by
  unfold medAfter writeStep
  rw [if_pos hw]
  simp only
  rw [write_spec hb _ _ _ hf hp, mark_spec c _ _ hf hp]

theorem medAfter_other (hb : 0 < c.blockInt) (st : St) {f a : Nat} (h : a < st.offset ∨ st.offset + c.step ≤ a ∨ c.nfiles ≤ f) :
    medAfter c st f a = st.med f a := by
  unfold medAfter writeStep
  split
  · simp only
    rw [write_other hb _ _ _ h]
  · rfl

theorem medAfter_no (hw : c.doWrite = false) (st : St) : medAfter c st = st.med := by
  unfold medAfter writeStep
  rw [if_neg (by simp [hw])]

theorem after_offset (n : Nat) : (after c out off med n).offset = off + n * c.step := by
  induction n with
  | zero => simp [after, init]
  | succ n ih =>
    show (stepOnce c (out n) (after c out off med n)).offset = _
    rw [step_offset, ih, Nat.add_mul]; omega

theorem pat_eq (hs : Small c) {x : Nat} (hx : x < c.nfiles * c.stepInt) : pat c x = pat64 c x := by
  unfold pat pat64
  rcases hs with h | h
  · rw [if_pos h, if_pos h]
  · split
    · rfl
    · exact Nat.mod_eq_of_lt (Nat.lt_of_lt_of_le hx h)

theorem messages_small (hs : Small c) (o : Nat) (buf : Nat → Nat) :
    messages c o buf = [] ↔ ∀ f p, f < c.nfiles → p < c.stepInt → buf (c.stepInt * f + p) = wanted c o f p := by
  rw [messages_nil]
  constructor
  · intro h f p hf hp; exact (h f p hf hp).1
  · intro h f p hf hp
    refine ⟨h f p hf hp, ?_⟩
    rw [checked_at c o buf hf hp]
    split
    · exact pat_eq hs (index_lt hf hp)
    · rename_i h1
      rw [h f p hf hp]
      unfold wanted
      rw [if_neg h1]

/-- In whole sectors, sector numbers are looked for where they are written. -/
theorem wanted_whole (hw : Whole c) {o f p : Nat} (hp : p < c.stepInt) :
    wanted c o f p = if p % 128 = 42 then o / 512 + p / 128 else pat64 c (c.stepInt * f + p) := by
  unfold wanted
  unfold Whole at hw
  by_cases h : p % 128 = 42
  · rw [if_pos h, if_pos (by omega)]
  · rw [if_neg h, if_neg (by omega)]

theorem failed_step (hv : c.doVerify = true) (n : Nat) :
    (after c out off med (n + 1)).failed = false ↔ (after c out off med n).failed = false ∧ messages c (off + n * c.step) (bufRead c (out n) (after c out off med n)) = [] := by
  have h := (step_verify hv (out n) (after c out off med n)).2.1
  rw [after_offset] at h
  show (stepOnce c (out n) (after c out off med n)).failed = false ↔ _
  rw [h]
  simp

/-- If no error was found, the buffer holds the pattern. -/
theorem buf_ok (hv : c.doVerify = true) : ∀ n, (after c out off med n).failed = false → ∀ x, x < c.nfiles * c.stepInt →
    (after c out off med n).buf x = pat c x ∨ (after c out off med n).buf x = pat64 c x := by
  intro n
  cases n with
  | zero => intro _ x _; exact Or.inl rfl
  | succ n =>
    intro hf x hx
    have h1 := ((failed_step hv n).1 hf).2
    obtain ⟨f, p, h2, h3, rfl⟩ := index_split hx
    right
    have h4 := (step_verify hv (out n) (after c out off med n)).2.2
    show (stepOnce c (out n) (after c out off med n)).buf _ = _
    rw [h4, after_offset]
    exact ((messages_nil c _ _).1 h1 f p h2 h3).2

theorem no_alarm (hb : 0 < c.blockInt) (hw : c.doWrite = true) (hv : c.doVerify = true) (hwh : Whole c) (hs : Small c) (hf : Faithful out) :
    ∀ n, off + n * c.step ≤ 2 ^ 41 → (after c out off med n).failed = false ∧ (after c out off med n).log = [] := by
  intro n
  induction n with
  | zero => intro _; exact ⟨rfl, rfl⟩
  | succ n ih =>
    intro hle
    rw [Nat.add_mul, Nat.one_mul] at hle
    obtain ⟨i1, i2⟩ := ih (by omega)
    have hm : messages c (off + n * c.step) (bufRead c (out n) (after c out off med n)) = [] := by
      rw [messages_small hs]
      intro f p h1 h2
      rw [bufRead_at hb (by simp [hv]) _ _ h1 h2]
      unfold returned
      rw [hf, Option.getD_none, medAfter_at hb hw _ h1 h2, wanted_whole hwh h2, after_offset]
      split
      · apply Nat.mod_eq_of_lt
        have := step_eq c
        unfold W
        omega
      · rcases buf_ok hv n i1 _ (index_lt h1 h2) with e | e
        · rw [e, pat_eq hs (index_lt h1 h2)]
        · exact e
    refine ⟨(failed_step hv n).2 ⟨i1, hm⟩, ?_⟩
    have h := (step_verify hv (out n) (after c out off med n)).1
    rw [after_offset, hm, i2] at h
    exact h

theorem detects (hb : 0 < c.blockInt) (hw : c.doWrite = true) (hv : c.doVerify = true) (hwh : Whole c) (hwo : Words out) :
    ∀ n, (after c out off med (n + 1)).failed = false → ∀ f p, f < c.nfiles → p < c.stepInt →
      ∀ w, out n f (off + n * c.step + 4 * p) = some w → w = (after c out off med (n + 1)).med f (off + n * c.step + 4 * p) := by
  intro n hf f p h1 h2 w hw'
  obtain ⟨h3, h4⟩ := (failed_step hv n).1 hf
  have h5 := ((messages_nil c _ _).1 h4 f p h1 h2).1
  rw [bufRead_at hb (by simp [hv]) _ _ h1 h2] at h5
  unfold returned at h5
  rw [after_offset, hw', Option.getD_some, wanted_whole hwh h2] at h5
  have h6 := hwo _ _ _ _ hw'
  have h7 : (after c out off med (n + 1)).med f (off + n * c.step + 4 * p) = _ :=
    congrFun (congrFun (step_med (out n) (after c out off med n)) f) (off + n * c.step + 4 * p)
  have h8 := medAfter_at hb hw (after c out off med n) h1 h2
  rw [after_offset] at h8
  rw [h7, h8]
  split
  · rename_i h
    rw [if_pos h] at h5
    rw [h5] at h6 ⊢
    exact (Nat.mod_eq_of_lt h6).symm
  · rename_i h
    rw [if_neg h] at h5
    rcases buf_ok hv n h3 _ (index_lt h1 h2) with e | e
    · rw [e]
      rw [h5] at h6 ⊢
      unfold pat64 at h6 ⊢
      unfold pat
      split
      · rfl
      · rename_i h9
        rw [if_neg h9] at h6
        exact (Nat.mod_eq_of_lt h6).symm
    · rw [e]; exact h5

theorem failed_mono : ∀ {n m : Nat}, n ≤ m → (after c out off med m).failed = false → (after c out off med n).failed = false := by
  intro n m h
  induction h with
  | refl => exact id
  | step _ ih =>
    rename_i m _
    intro hf
    apply ih
    by_cases hv : c.doVerify = true
    · exact ((failed_step hv m).1 hf).1
    · have : (after c out off med (m + 1)).failed = (after c out off med m).failed := by
        show (stepOnce c (out m) (after c out off med m)).failed = _
        unfold stepOnce verifyStep
        rw [if_neg hv]
        simp only
        rw [read_failed, write_failed]
      rw [this] at hf; exact hf

/-- Outside of the sector numbers, the buffer holds the pattern as long as no errors are found. -/
theorem buf_pat (hs : Small c) (hm : c.doVerify = true ∨ (c.doRead = false ∧ c.doVerify = false)) :
    ∀ n, (after c out off med n).failed = false → ∀ f p, f < c.nfiles → p < c.stepInt → p % 128 ≠ 42 →
      (after c out off med n).buf (c.stepInt * f + p) = pat64 c (c.stepInt * f + p) := by
  intro n hf f p h1 h2 h3
  rcases hm with hv | ⟨hr, hv⟩
  · rcases buf_ok hv n hf _ (index_lt h1 h2) with e | e
    · rw [e, pat_eq hs (index_lt h1 h2)]
    · exact e
  · clear hf
    induction n with
    | zero => exact pat_eq hs (index_lt h1 h2)
    | succ n ih =>
      rw [← ih]
      show (stepOnce c (out n) (after c out off med n)).buf _ = _
      unfold stepOnce verifyStep readStep
      rw [if_neg (by simp [hv]), if_neg (by simp [hv, hr])]
      simp only
      unfold writeStep
      split
      · simp only
        rw [mark_spec c _ _ h1 h2, if_neg h3]
      · rfl

theorem written (hb : 0 < c.blockInt) (hw : c.doWrite = true) (hs : Small c) (hm : c.doVerify = true ∨ (c.doRead = false ∧ c.doVerify = false)) :
    ∀ n, (after c out off med n).failed = false → ∀ k f p, k < n → f < c.nfiles → p < c.stepInt →
      (after c out off med n).med f (off + k * c.step + 4 * p) = content c (off + k * c.step) f p := by
  intro n
  induction n with
  | zero => intro _ k f p h; omega
  | succ n ih =>
    intro hf k f p hk h1 h2
    have hf' := failed_mono (Nat.le_succ n) hf
    have h7 : (after c out off med (n + 1)).med f (off + k * c.step + 4 * p) = _ :=
      congrFun (congrFun (step_med (out n) (after c out off med n)) f) (off + k * c.step + 4 * p)
    rw [h7]
    by_cases hkn : k = n
    · subst hkn
      have h8 := medAfter_at hb hw (after c out off med k) h1 h2
      rw [after_offset] at h8
      rw [h8]
      unfold content
      split
      · rfl
      · rename_i h3
        rw [buf_pat hs hm k hf' f p h1 h2 h3]; rfl
    · rw [medAfter_other hb]
      · exact ih hf' k f p (by omega) h1 h2
      · left
        rw [after_offset]
        have e := step_eq c
        have : (k + 1) * c.step ≤ n * c.step := Nat.mul_le_mul_right _ (by omega)
        rw [Nat.add_mul, Nat.one_mul] at this
        omega

theorem untouched (hb : 0 < c.blockInt) (n : Nat) {f a : Nat} (h : a < off ∨ off + n * c.step ≤ a ∨ c.nfiles ≤ f) :
    (after c out off med n).med f a = med f a := by
  induction n with
  | zero => rfl
  | succ n ih =>
    have h7 : (after c out off med (n + 1)).med f a = _ := congrFun (congrFun (step_med (out n) (after c out off med n)) f) a
    rw [Nat.add_mul, Nat.one_mul] at h
    rw [h7, medAfter_other hb, ih (by omega)]
    rw [after_offset]
    omega

theorem not_written (hw : c.doWrite = false) (n : Nat) : (after c out off med n).med = med := by
  induction n with
  | zero => rfl
  | succ n ih =>
    show (stepOnce c (out n) (after c out off med n)).med = _
    rw [step_med, medAfter_no hw, ih]

theorem verify_only (hb : 0 < c.blockInt) (hw : c.doWrite = false) (hv : c.doVerify = true) (hs : Small c) : ∀ n,
    (after c out off med n).failed = false ↔ ∀ k f p, k < n → f < c.nfiles → p < c.stepInt →
      (out k f (off + k * c.step + 4 * p)).getD (med f (off + k * c.step + 4 * p)) = wanted c (off + k * c.step) f p := by
  intro n
  induction n with
  | zero => exact ⟨fun _ k f p h => absurd h (Nat.not_lt_zero k), fun _ => rfl⟩
  | succ n ih =>
    rw [failed_step hv, ih, messages_small hs]
    have e : ∀ f p, f < c.nfiles → p < c.stepInt → bufRead c (out n) (after c out off med n) (c.stepInt * f + p) =
        (out n f (off + n * c.step + 4 * p)).getD (med f (off + n * c.step + 4 * p)) := by
      intro f p h1 h2
      rw [bufRead_at hb (by simp [hv]) _ _ h1 h2, medAfter_no hw, not_written hw, after_offset]; rfl
    constructor
    · rintro ⟨h1, h2⟩ k f p hk hf hp
      by_cases h : k = n
      · subst h; rw [← e f p hf hp]; exact h2 f p hf hp
      · exact h1 k f p (by omega) hf hp
    · intro h
      exact ⟨fun k f p hk => h k f p (by omega), fun f p hf hp => by rw [e f p hf hp]; exact h n f p (Nat.lt_succ_self n) hf hp⟩

theorem mainLoop_after (hstep : 0 < c.step) (endpos : Nat) : ∀ (fuel n : Nat), off + n * c.step ≤ endpos → endpos < fuel + off + n * c.step →
    mainLoop c out endpos fuel n (after c out off med n) = some (after c out off med ((endpos - off) / c.step)) := by
  intro fuel
  induction fuel with
  | zero => intro n h1 h2; omega
  | succ fuel ih =>
    intro n h1 h2
    unfold mainLoop
    rw [after_offset]
    by_cases h : off + n * c.step + c.step ≤ endpos
    · rw [if_pos h]
      exact ih (n + 1) (by rw [Nat.add_mul]; omega) (by rw [Nat.add_mul]; omega)
    · rw [if_neg h]
      have : (endpos - off) / c.step = n := by
        rw [Nat.div_eq_iff hstep]
        have h3 : n * c.step + c.step = (n + 1) * c.step := by rw [Nat.add_mul, Nat.one_mul]
        omega
      rw [this]

theorem benchmark_after (hstep : 0 < c.step) (length : Nat) : benchmark c out off length med = some (after c out off med (length / c.step)) := by
  have := mainLoop_after (c := c) (out := out) (off := off) (med := med) hstep (off + length) (length + 1) 0 (by omega) (by omega)
  rw [Nat.add_sub_cancel_left] at this
  exact this

end Foxxll.FileBench
