import Verif.Model.FileBench

namespace Foxxll.FileBench

/-! ### Loops -/

theorem fold_get {M β γ : Type} (g : M → γ → M) (get : M → β) (P : γ → Prop) [DecidablePred P] (V : β) (rs : List γ)
    (h : ∀ m, ∀ r ∈ rs, get (g m r) = if P r then V else get m) (m : M) :
    get (rs.foldl g m) = if ∃ r ∈ rs, P r then V else get m := by
  induction rs generalizing m with
  | nil => simp
  | cons r rs ih =>
    rw [List.foldl_cons, ih (fun m r' hr' => h m r' (List.mem_cons_of_mem _ hr')), h m r (List.mem_cons_self ..)]
    by_cases h1 : ∃ r' ∈ rs, P r'
    · obtain ⟨r', a, b⟩ := h1
      rw [if_pos ⟨r', a, b⟩, if_pos ⟨r', List.mem_cons_of_mem _ a, b⟩]
    · rw [if_neg h1]
      by_cases h2 : P r
      · rw [if_pos h2, if_pos ⟨r, List.mem_cons_self .., h2⟩]
      · rw [if_neg h2, if_neg]
        rintro ⟨r', a, b⟩
        rcases List.mem_cons.1 a with rfl | a
        · exact h2 b
        · exact h1 ⟨r', a, b⟩

theorem split_index {S i p i' p' : Nat} (hp : p < S) (hp' : p' < S) (h : S * i + p = S * i' + p') : i = i' ∧ p = p' := by
  have h1 : (S * i + p) / S = i := by rw [Nat.mul_add_div (by omega), Nat.div_eq_of_lt hp]; omega
  have h2 : (S * i' + p') / S = i' := by rw [Nat.mul_add_div (by omega), Nat.div_eq_of_lt hp']; omega
  rw [h, h2] at h1
  subst h1
  exact ⟨rfl, by omega⟩

theorem set_files {S n j v : Nat} (hj : j < S) (buf : Nat → Nat) {i p : Nat} (hi : i < n) (hp : p < S) :
    (List.range n).foldl (fun f i => setAt f (S * i + j) v) buf (S * i + p) = if p = j then v else buf (S * i + p) := by
  have := fold_get (fun f i => setAt f (S * i + j) v) (fun f => f (S * i + p)) (fun i' => i' = i ∧ p = j) v (List.range n)
    (by
      intro m r _
      simp only [setAt]
      by_cases h : S * i + p = S * r + j
      · obtain ⟨h1, h2⟩ := split_index hp hj h
        rw [if_pos h, if_pos ⟨h1.symm, h2⟩]
      · rw [if_neg h, if_neg]
        rintro ⟨rfl, rfl⟩; exact h rfl) buf
  rw [this]
  by_cases h : p = j
  · rw [if_pos h, if_pos ⟨i, List.mem_range.2 hi, rfl, h⟩]
  · rw [if_neg h, if_neg]
    rintro ⟨_, _, _, h'⟩; exact h h'

theorem mark_at (c : Cfg) : ∀ (fuel j b : Nat) (buf : Nat → Nat) {i p : Nat}, i < c.nfiles → p < c.stepInt →
    mark c fuel j b buf (c.stepInt * i + p) =
      if j ≤ p ∧ (p - j) % 128 = 0 ∧ (p - j) / 128 < fuel then (b + (p - j) / 128) % W else buf (c.stepInt * i + p) := by
  intro fuel
  induction fuel with
  | zero => intro j b buf i p _ _; rw [if_neg (by omega)]; rfl
  | succ fuel ih =>
    intro j b buf i p hi hp
    unfold mark
    by_cases hj : j < c.stepInt
    · rw [if_pos hj, ih _ _ _ hi hp, set_files hj _ hi hp]
      by_cases h1 : p = j
      · subst h1
        rw [if_neg (by omega), if_pos rfl, if_pos (by refine ⟨Nat.le_refl _, by omega, by omega⟩)]
        simp
      · rw [if_neg h1]
        by_cases h2 : j + 128 ≤ p ∧ (p - (j + 128)) % 128 = 0 ∧ (p - (j + 128)) / 128 < fuel
        · rw [if_pos h2, if_pos (by omega)]
          have : b + 1 + (p - (j + 128)) / 128 = b + (p - j) / 128 := by omega
          rw [this]
        · rw [if_neg h2, if_neg (by omega)]
    · rw [if_neg hj, if_neg (by omega)]

/-- The buffer when a step is written. -/
theorem mark_spec (c : Cfg) (b : Nat) (buf : Nat → Nat) {i p : Nat} (hi : i < c.nfiles) (hp : p < c.stepInt) :
    mark c c.stepInt 42 b buf (c.stepInt * i + p) = if p % 128 = 42 then (b + p / 128) % W else buf (c.stepInt * i + p) := by
  rw [mark_at c _ _ _ _ hi hp]
  by_cases h : p % 128 = 42
  · rw [if_pos h, if_pos (by omega)]
    have : (p - 42) / 128 = p / 128 := by omega
    rw [this]
  · rw [if_neg h, if_neg (by omega)]

/-! ### Transfers -/

theorem stepInt_eq (c : Cfg) : c.stepInt = c.blockInt * c.batch := by
  unfold Cfg.stepInt Cfg.step Cfg.block
  rw [Nat.mul_right_comm, Nat.mul_div_cancel _ (by decide)]

theorem step_eq (c : Cfg) : c.step = 4 * c.stepInt := by
  rw [stepInt_eq]; unfold Cfg.step Cfg.block
  rw [Nat.mul_right_comm, Nat.mul_comm]

theorem mem_requests {c : Cfg} (hb : 0 < c.blockInt) (r : Nat × Nat) : r ∈ requests c ↔ r.1 < c.nfiles ∧ r.2 < c.batch := by
  have h1 : (c.step + c.block - 1) / c.block = c.batch := by
    have hb' : 0 < c.block := by unfold Cfg.block; omega
    unfold Cfg.step
    have : c.block * c.batch + c.block - 1 = c.block * c.batch + (c.block - 1) := by omega
    rw [this, Nat.mul_add_div hb', Nat.div_eq_of_lt (by omega)]; rfl
  unfold requests
  rw [h1]
  simp only [List.mem_flatMap, List.mem_map, List.mem_range]
  constructor
  · rintro ⟨i, hi, j, hj, rfl⟩; exact ⟨hi, hj⟩
  · rintro ⟨hi, hj⟩; exact ⟨r.1, hi, r.2, hj, rfl⟩

theorem in_block {bi batch p : Nat} (hp : p < bi * batch) : p / bi < batch ∧ p / bi * bi ≤ p ∧ p < p / bi * bi + bi := by
  have h0 : 0 < bi := by
    rcases Nat.eq_zero_or_pos bi with h | h
    · subst h; omega
    · exact h
  refine ⟨Nat.div_lt_of_lt_mul hp, Nat.div_mul_le_self p bi, ?_⟩
  have := Nat.div_add_mod' p bi
  have := Nat.mod_lt p h0
  omega

theorem block_le {bi batch j : Nat} (h : j < batch) : j * bi + bi ≤ bi * batch := by
  have : (j + 1) * bi ≤ batch * bi := Nat.mul_le_mul_right _ h
  rw [Nat.add_mul, Nat.one_mul] at this
  rw [Nat.mul_comm bi]; exact this

theorem write_spec {c : Cfg} (hb : 0 < c.blockInt) (off : Nat) (buf : Nat → Nat) (med : Nat → Nat → Nat) {f p : Nat} (hf : f < c.nfiles) (hp : p < c.stepInt) :
    (requests c).foldl (writeBlock c off buf) med f (off + 4 * p) = buf (c.stepInt * f + p) := by
  have := fold_get (writeBlock c off buf) (fun m => m f (off + 4 * p))
    (fun r => f = r.1 ∧ off + r.2 * c.block ≤ off + 4 * p ∧ off + 4 * p < off + r.2 * c.block + c.block ∧ (off + 4 * p - (off + r.2 * c.block)) % 4 = 0)
    (buf (c.stepInt * f + p)) (requests c)
    (by
      intro m r _
      simp only [writeBlock]
      by_cases h : f = r.1 ∧ off + r.2 * c.block ≤ off + 4 * p ∧ off + 4 * p < off + r.2 * c.block + c.block ∧ (off + 4 * p - (off + r.2 * c.block)) % 4 = 0
      · rw [if_pos h, if_pos h]
        obtain ⟨h1, h2, _, _⟩ := h
        subst h1
        congr 1
        have e : r.2 * c.block = 4 * (r.2 * c.blockInt) := by unfold Cfg.block; rw [← Nat.mul_assoc, Nat.mul_comm]
        rw [e] at h2 ⊢
        omega
      · rw [if_neg h, if_neg h]) med
  rw [this, if_pos]
  rw [stepInt_eq] at hp
  obtain ⟨h1, h2, h3⟩ := in_block hp
  refine ⟨(f, p / c.blockInt), (mem_requests hb _).2 ⟨hf, h1⟩, rfl, ?_⟩
  have e : p / c.blockInt * c.block = 4 * (p / c.blockInt * c.blockInt) := by unfold Cfg.block; rw [← Nat.mul_assoc, Nat.mul_comm]
  have e2 : c.block = 4 * c.blockInt := by unfold Cfg.block; omega
  simp only
  rw [e, e2]
  omega

theorem write_other {c : Cfg} (hb : 0 < c.blockInt) (off : Nat) (buf : Nat → Nat) (med : Nat → Nat → Nat) {f a : Nat} (h : a < off ∨ off + c.step ≤ a ∨ c.nfiles ≤ f) :
    (requests c).foldl (writeBlock c off buf) med f a = med f a := by
  have := fold_get (writeBlock c off buf) (fun m => m f a) (fun _ => False) (0 : Nat) (requests c)
    (by
      intro m r hr
      rw [if_neg (by simp)]
      simp only [writeBlock]
      rw [if_neg]
      rintro ⟨h1, h2, h3, _⟩
      obtain ⟨h4, h5⟩ := (mem_requests hb _).1 hr
      have e : r.2 * c.block = 4 * (r.2 * c.blockInt) := by unfold Cfg.block; rw [← Nat.mul_assoc, Nat.mul_comm]
      have e2 : c.block = 4 * c.blockInt := by unfold Cfg.block; omega
      have h6 := block_le (bi := c.blockInt) h5
      rw [step_eq, stepInt_eq] at h
      rw [e] at h2 h3
      rw [e2] at h3
      omega) med
  rw [this, if_neg (by simp)]

theorem read_spec {c : Cfg} (hb : 0 < c.blockInt) (off : Nat) (got : Nat → Nat → Nat) (buf : Nat → Nat) {f p : Nat} (hf : f < c.nfiles) (hp : p < c.stepInt) :
    (requests c).foldl (readBlock c off got) buf (c.stepInt * f + p) = got f (off + 4 * p) := by
  have := fold_get (readBlock c off got) (fun m => m (c.stepInt * f + p))
    (fun r => c.stepInt * r.1 + r.2 * c.blockInt ≤ c.stepInt * f + p ∧ c.stepInt * f + p < c.stepInt * r.1 + r.2 * c.blockInt + c.blockInt)
    (got f (off + 4 * p)) (requests c)
    (by
      intro m r hr
      simp only [readBlock]
      by_cases h : c.stepInt * r.1 + r.2 * c.blockInt ≤ c.stepInt * f + p ∧ c.stepInt * f + p < c.stepInt * r.1 + r.2 * c.blockInt + c.blockInt
      · rw [if_pos h, if_pos h]
        obtain ⟨h4, h5⟩ := (mem_requests hb _).1 hr
        have h6 := block_le (bi := c.blockInt) h5
        rw [← stepInt_eq] at h6
        obtain ⟨k, hk⟩ : ∃ k, c.stepInt * f + p = c.stepInt * r.1 + (r.2 * c.blockInt + k) := ⟨c.stepInt * f + p - (c.stepInt * r.1 + r.2 * c.blockInt), by omega⟩
        obtain ⟨h7, h8⟩ := split_index hp (by omega) hk
        subst h7
        congr 1
        have e : r.2 * c.block = 4 * (r.2 * c.blockInt) := by unfold Cfg.block; rw [← Nat.mul_assoc, Nat.mul_comm]
        rw [e]
        omega
      · rw [if_neg h, if_neg h]) buf
  rw [this, if_pos]
  have hp' := hp
  rw [stepInt_eq] at hp'
  obtain ⟨h1, h2, h3⟩ := in_block hp'
  exact ⟨(f, p / c.blockInt), (mem_requests hb _).2 ⟨hf, h1⟩, by simp only; omega, by simp only; omega⟩

/-! ### Verification -/

/-- Index of a sector number in the buffer. -/
def idx (c : Cfg) (ds : Nat × Nat) : Nat := ds.1 * c.stepInt + ds.2 * 128 + 42

theorem checkSector_fold (c : Cfg) (off : Nat) (l : List (Nat × Nat)) (hn : (l.map (idx c)).Nodup) (buf : Nat → Nat) (log : List Report) :
    (∀ x, (l.foldl (checkSector c off) (buf, log)).1 x = if ∃ ds ∈ l, idx c ds = x then pat c x else buf x) ∧
    (l.foldl (checkSector c off) (buf, log)).2 = log ++ (l.filter fun ds => decide (buf (idx c ds) ≠ off / 512 + ds.2)).map fun ds => .sector ds.1 (off / 512 + ds.2) := by
  induction l generalizing buf log with
  | nil => simp
  | cons ds l ih =>
    rw [List.map_cons, List.nodup_cons] at hn
    obtain ⟨h1, h2⟩ := ih hn.2 (checkSector c off (buf, log) ds).1 (checkSector c off (buf, log) ds).2
    rw [List.foldl_cons]
    refine ⟨?_, ?_⟩
    · intro x
      rw [h1]
      by_cases h3 : ∃ ds' ∈ l, idx c ds' = x
      · obtain ⟨a, b, e⟩ := h3
        rw [if_pos ⟨a, b, e⟩, if_pos ⟨a, List.mem_cons_of_mem _ b, e⟩]
      · rw [if_neg h3]
        show setAt buf (idx c ds) (pat c (idx c ds)) x = _
        unfold setAt
        by_cases h4 : x = idx c ds
        · subst h4
          rw [if_pos rfl, if_pos ⟨ds, List.mem_cons_self .., rfl⟩]
        · rw [if_neg h4, if_neg]
          rintro ⟨a, b, e⟩
          rcases List.mem_cons.1 b with rfl | b
          · exact h4 e.symm
          · exact h3 ⟨a, b, e⟩
    · rw [h2]
      have h5 : (l.filter fun ds' => decide ((checkSector c off (buf, log) ds).1 (idx c ds') ≠ off / 512 + ds'.2)) =
          l.filter fun ds' => decide (buf (idx c ds') ≠ off / 512 + ds'.2) := by
        apply List.filter_congr
        intro ds' hd
        have : idx c ds' ≠ idx c ds := by
          intro e
          exact hn.1 (e ▸ List.mem_map.2 ⟨ds', hd, rfl⟩)
        show decide (setAt buf (idx c ds) (pat c (idx c ds)) (idx c ds') ≠ _) = _
        unfold setAt
        rw [if_neg this]
      rw [h5, List.filter_cons]
      show (if buf (idx c ds) ≠ off / 512 + ds.2 then log ++ [.sector ds.1 (off / 512 + ds.2)] else log) ++ _ = _
      by_cases h6 : buf (idx c ds) = off / 512 + ds.2
      · simp [h6]
      · simp [h6]

def sectors (c : Cfg) : List (Nat × Nat) := (List.range c.nfiles).flatMap fun d => (List.range (c.step / 512)).map fun s => (d, s)

theorem mem_sectors (c : Cfg) (ds : Nat × Nat) : ds ∈ sectors c ↔ ds.1 < c.nfiles ∧ ds.2 < c.stepInt / 128 := by
  have h1 : c.step / 512 = c.stepInt / 128 := by rw [step_eq]; omega
  unfold sectors
  rw [h1]
  simp only [List.mem_flatMap, List.mem_map, List.mem_range]
  constructor
  · rintro ⟨i, hi, j, hj, rfl⟩; exact ⟨hi, hj⟩
  · rintro ⟨hi, hj⟩; exact ⟨ds.1, hi, ds.2, hj, rfl⟩

theorem idx_inj (c : Cfg) {a b : Nat × Nat} (ha : a.2 < c.stepInt / 128) (hb : b.2 < c.stepInt / 128) (h : idx c a = idx c b) : a = b := by
  unfold idx at h
  rw [Nat.mul_comm a.1, Nat.mul_comm b.1, Nat.add_assoc, Nat.add_assoc] at h
  obtain ⟨h1, h2⟩ := split_index (by omega) (by omega) h
  exact Prod.ext h1 (by omega)

theorem sectors_nodup (c : Cfg) : ((sectors c).map (idx c)).Nodup := by
  have hn : (sectors c).Nodup := by
    unfold sectors
    rw [List.nodup_iff_pairwise_ne, List.pairwise_flatMap]
    refine ⟨?_, ?_⟩
    · intro d _
      rw [List.pairwise_map]
      exact List.Pairwise.imp (fun h e => h (congrArg Prod.snd e)) (List.nodup_iff_pairwise_ne.1 List.nodup_range)
    · refine List.Pairwise.imp ?_ (List.nodup_iff_pairwise_ne.1 (List.nodup_range (n := c.nfiles)))
      intro a b hab x hx y hy
      obtain ⟨s, _, rfl⟩ := List.mem_map.1 hx
      obtain ⟨t, _, rfl⟩ := List.mem_map.1 hy
      exact fun e => hab (congrArg Prod.fst e)
  rw [List.nodup_iff_pairwise_ne, List.pairwise_map]
  refine List.Pairwise.imp_of_mem ?_ (List.nodup_iff_pairwise_ne.1 hn)
  intro a b ha hb hab e
  exact hab (idx_inj c ((mem_sectors c a).1 ha).2 ((mem_sectors c b).1 hb).2 e)

theorem checkWords_nil (c : Cfg) (off : Nat) (buf : Nat → Nat) : ∀ (fuel i : Nat), c.nfiles * c.stepInt ≤ fuel + i →
    (checkWords c off buf fuel i = [] ↔ ∀ x, i ≤ x → x < c.nfiles * c.stepInt → buf x = pat64 c x) := by
  intro fuel
  induction fuel with
  | zero =>
    intro i h
    unfold checkWords
    exact ⟨fun _ x h1 h2 => absurd h2 (by omega), fun _ => rfl⟩
  | succ fuel ih =>
    intro i h
    unfold checkWords
    by_cases hi : i < c.nfiles * c.stepInt
    · rw [if_pos hi]
      by_cases hw : buf i = pat64 c i
      · rw [if_neg (by simp [hw]), ih (i + 1) (by omega)]
        constructor
        · intro h' x h1 h2
          by_cases e : x = i
          · subst e; exact hw
          · exact h' x (by omega) h2
        · intro h' x h1 h2; exact h' x (by omega) h2
      · rw [if_pos hw]
        constructor
        · intro h'; cases h'
        · intro h'; exact absurd (h' i (Nat.le_refl _) hi) hw
    · rw [if_neg hi]
      exact ⟨fun _ x h1 h2 => absurd h2 (by omega), fun _ => rfl⟩

theorem checkWords_mem (c : Cfg) (off : Nat) (buf : Nat → Nat) (r : Report) : ∀ (fuel i : Nat), r ∈ checkWords c off buf fuel i →
    ∃ f p, f < c.nfiles ∧ p < c.stepInt ∧ r = .word f (off + p * 4) ∧ buf (c.stepInt * f + p) ≠ pat64 c (c.stepInt * f + p) := by
  intro fuel
  induction fuel with
  | zero => intro i h; cases h
  | succ fuel ih =>
    intro i h
    unfold checkWords at h
    split at h
    · rename_i hi
      split at h
      · rename_i hw
        rcases List.mem_cons.1 h with h | h
        · have hS : 0 < c.stepInt := by
            rcases Nat.eq_zero_or_pos c.stepInt with h0 | h0
            · rw [h0] at hi; omega
            · exact h0
          refine ⟨i / c.stepInt, i % c.stepInt, ?_, Nat.mod_lt _ hS, h, ?_⟩
          · rw [Nat.mul_comm] at hi; exact Nat.div_lt_of_lt_mul hi
          · rw [Nat.div_add_mod]; exact hw
        · exact ih _ h
      · exact ih _ h
    · cases h

/-- What the verification wants to find in word `p` of file `f`. -/
def wanted (c : Cfg) (off f p : Nat) : Nat :=
  if p % 128 = 42 ∧ p / 128 < c.stepInt / 128 then off / 512 + p / 128 else pat64 c (c.stepInt * f + p)

theorem index_split {n S x : Nat} (hx : x < n * S) : ∃ f p, f < n ∧ p < S ∧ x = S * f + p := by
  have hS : 0 < S := by
    rcases Nat.eq_zero_or_pos S with h0 | h0
    · subst h0; omega
    · exact h0
  refine ⟨x / S, x % S, ?_, Nat.mod_lt _ hS, (Nat.div_add_mod _ _).symm⟩
  rw [Nat.mul_comm] at hx; exact Nat.div_lt_of_lt_mul hx

theorem index_lt {n S f p : Nat} (hf : f < n) (hp : p < S) : S * f + p < n * S := by
  have : (f + 1) * S ≤ n * S := Nat.mul_le_mul_right _ hf
  rw [Nat.add_mul, Nat.one_mul, Nat.mul_comm] at this
  omega

theorem idx_iff (c : Cfg) {f p : Nat} (hf : f < c.nfiles) (hp : p < c.stepInt) :
    (∃ ds ∈ sectors c, idx c ds = c.stepInt * f + p) ↔ p % 128 = 42 ∧ p / 128 < c.stepInt / 128 := by
  constructor
  · rintro ⟨ds, h1, h2⟩
    obtain ⟨h3, h4⟩ := (mem_sectors c ds).1 h1
    unfold idx at h2
    rw [Nat.mul_comm, Nat.add_assoc] at h2
    obtain ⟨h5, h6⟩ := split_index (by omega) hp h2
    omega
  · rintro ⟨h1, h2⟩
    refine ⟨(f, p / 128), (mem_sectors c _).2 ⟨hf, h2⟩, ?_⟩
    unfold idx
    simp only
    rw [Nat.mul_comm, Nat.add_assoc]
    omega

/-- Messages of one verification. -/
def messages (c : Cfg) (off : Nat) (buf : Nat → Nat) : List Report :=
  (checkSectors c off buf).2 ++ checkWords c off (checkSectors c off buf).1 (c.nfiles * c.stepInt) 0

theorem checked_at (c : Cfg) (off : Nat) (buf : Nat → Nat) {f p : Nat} (hf : f < c.nfiles) (hp : p < c.stepInt) :
    (checkSectors c off buf).1 (c.stepInt * f + p) =
      if p % 128 = 42 ∧ p / 128 < c.stepInt / 128 then pat c (c.stepInt * f + p) else buf (c.stepInt * f + p) := by
  have h1 := (checkSector_fold c off (sectors c) (sectors_nodup c) buf []).1 (c.stepInt * f + p)
  refine Eq.trans h1 ?_
  by_cases h : p % 128 = 42 ∧ p / 128 < c.stepInt / 128
  · rw [if_pos h, if_pos ((idx_iff c hf hp).2 h)]
  · rw [if_neg h, if_neg (fun h' => h ((idx_iff c hf hp).1 h'))]

theorem sector_messages (c : Cfg) (off : Nat) (buf : Nat → Nat) :
    (checkSectors c off buf).2 = ((sectors c).filter fun ds => decide (buf (idx c ds) ≠ off / 512 + ds.2)).map fun ds => .sector ds.1 (off / 512 + ds.2) := by
  have h2 := (checkSector_fold c off (sectors c) (sectors_nodup c) buf []).2
  exact Eq.trans h2 (List.nil_append _)

theorem messages_nil (c : Cfg) (off : Nat) (buf : Nat → Nat) :
    messages c off buf = [] ↔ (∀ f p, f < c.nfiles → p < c.stepInt → buf (c.stepInt * f + p) = wanted c off f p ∧
      (checkSectors c off buf).1 (c.stepInt * f + p) = pat64 c (c.stepInt * f + p)) := by
  unfold messages
  rw [List.append_eq_nil_iff, checkWords_nil _ _ _ _ _ (Nat.le_add_right _ _), sector_messages, List.map_eq_nil_iff, List.filter_eq_nil_iff]
  constructor
  · rintro ⟨h1, h2⟩ f p hf hp
    have h3 := h2 (c.stepInt * f + p) (Nat.zero_le _) (index_lt hf hp)
    refine ⟨?_, h3⟩
    unfold wanted
    by_cases h : p % 128 = 42 ∧ p / 128 < c.stepInt / 128
    · rw [if_pos h]
      have h4 := h1 (f, p / 128) ((mem_sectors c _).2 ⟨hf, h.2⟩)
      simp only [ne_eq, decide_not, Bool.not_eq_true', decide_eq_false_iff_not, Decidable.not_not] at h4
      have : idx c (f, p / 128) = c.stepInt * f + p := by
        unfold idx; simp only; rw [Nat.mul_comm, Nat.add_assoc]; omega
      rw [this] at h4
      exact h4
    · rw [if_neg h]
      rw [checked_at c off buf hf hp, if_neg h] at h3
      exact h3
  · intro h
    refine ⟨?_, ?_⟩
    · intro ds hds
      obtain ⟨h1, h2⟩ := (mem_sectors c _).1 hds
      simp only [ne_eq, decide_not, Bool.not_eq_true', decide_eq_false_iff_not, Decidable.not_not]
      have h3 := (h ds.1 (ds.2 * 128 + 42) h1 (by omega)).1
      unfold wanted at h3
      rw [if_pos (by omega)] at h3
      have : idx c ds = c.stepInt * ds.1 + (ds.2 * 128 + 42) := by
        unfold idx; rw [Nat.mul_comm, Nat.add_assoc]
      rw [this, h3]
      omega
    · intro x _ hx
      obtain ⟨f, p, hf, hp, rfl⟩ := index_split hx
      exact (h f p hf hp).2

end Foxxll.FileBench
