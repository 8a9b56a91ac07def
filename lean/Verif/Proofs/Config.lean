import Verif.Spec.Config
import Verif.Proofs.Files
/-
Helper lemmas about the disk configuration.
-/
set_option linter.unusedSimpArgs false
set_option linter.unusedVariables false
namespace Foxxll.Config

/-! ### Splitting -/

theorem splitAux_field (sep : Char) (lim : Option Nat) : ∀ (f rest cur : Str) (into : List Str), sep ∉ f →
    splitAux sep lim (f ++ rest) cur into = splitAux sep lim rest (cur ++ f) into := by
  intro f
  induction f with
  | nil => intro rest cur into _; simp
  | cons a f ih =>
    intro rest cur into h
    rw [List.cons_append, splitAux, if_neg (fun e => h (by simp [e])), ih _ _ _ (fun e => h (by simp [e]))]
    simp

theorem splitAux_last (sep : Char) (n : Nat) : ∀ (s cur : Str) (into : List Str), n ≤ into.length + 1 →
    splitAux sep (some n) s cur into = into ++ [cur ++ s] := by
  intro s
  induction s with
  | nil => intro cur into _; simp [splitAux]
  | cons a s ih =>
    intro cur into h
    rw [splitAux]
    split
    · simp [h, atLimit]
    · rw [ih _ _ h]; simp

theorem splitAux_sep (sep : Char) (lim : Option Nat) (rest cur : Str) (into : List Str)
    (h : ∀ n, lim = some n → into.length + 1 < n) :
    splitAux sep lim (sep :: rest) cur into = splitAux sep lim rest [] (into ++ [cur]) := by
  rw [splitAux, if_pos rfl]
  cases lim with
  | none => rfl
  | some n =>
    have := h n rfl
    rw [if_neg (by simp [atLimit]; omega)]

theorem split_eq2 {k : Str} (v : Str) (hk : '=' ∉ k) : split '=' (k ++ '=' :: v) 2 (some 2) = [k, v] := by
  unfold split
  simp only
  rw [splitAux_field _ _ _ _ _ _ hk, splitAux_sep _ _ _ _ _ (by intro n h; injection h with h; subst h; simp), splitAux_last _ _ _ _ _ (by simp)]
  simp

theorem split_eq1 {k : Str} (hk : '=' ∉ k) : split '=' k 2 (some 2) = [k, []] := by
  unfold split
  simp only
  have := splitAux_field '=' (some 2) k [] [] [] hk
  rw [List.append_nil] at this
  rw [this]
  simp [splitAux]

/-- There are always two fields. -/
theorem splitAux_ne_nil (sep : Char) (lim : Option Nat) : ∀ (s cur : Str) (into : List Str), splitAux sep lim s cur into ≠ [] := by
  intro s
  induction s with
  | nil => intro cur into; simp [splitAux]
  | cons a s ih =>
    intro cur into
    rw [splitAux]
    split
    · split
      · simp
      · exact ih _ _
    · exact ih _ _

theorem index_split (sep : Char) (s : Str) (m i : Nat) (lim : Option Nat) (h : i < m) : ∃ x, index (split sep s m lim) i = .ok x := by
  unfold index split
  simp only
  have : i < (splitAux sep lim s [] [] ++ List.replicate (m - (splitAux sep lim s [] []).length) []).length := by simp; omega
  rw [List.getElem?_eq_getElem this]
  exact ⟨_, rfl⟩

theorem splitAux_join : ∀ (ps : List Str) (p cur : Str) (into : List Str), ' ' ∉ p → (∀ q ∈ ps, ' ' ∉ q) →
    splitAux ' ' none (p ++ ps.flatMap (fun q => ' ' :: q)) cur into = into ++ (cur ++ p) :: ps := by
  intro ps
  induction ps with
  | nil => intro p cur into hp _; rw [splitAux_field _ _ _ _ _ _ hp]; simp [splitAux]
  | cons q ps ih =>
    intro p cur into hp hps
    rw [splitAux_field _ _ _ _ _ _ hp, List.flatMap_cons, List.cons_append, splitAux_sep _ _ _ _ _ (by simp),
      ih _ _ _ (hps q (by simp)) (fun r hr => hps r (by simp [hr]))]
    simp

theorem split_join (ps : List Str) (p : Str) (hp : ' ' ∉ p) (hps : ∀ q ∈ ps, ' ' ∉ q) :
    split ' ' (p ++ ps.flatMap (fun q => ' ' :: q)) 0 none = p :: ps := by
  unfold split
  simp only
  rw [splitAux_join _ _ _ _ hp hps]
  simp

/-! ### Numbers -/

theorem isDigit_ofNat (d : Nat) (h : d < 10) : isDigit (Char.ofNat (48 + d)) = true := by
  have : ∀ d : Fin 10, isDigit (Char.ofNat (48 + d.val)) = true := by decide
  exact this ⟨d, h⟩

theorem decimal_digits : ∀ (fuel n : Nat), ∀ ch ∈ Files.decimal fuel n, isDigit ch = true := by
  intro fuel
  induction fuel with
  | zero => intro n ch h; simp [Files.decimal] at h
  | succ fuel ih =>
    intro n ch h
    rw [Files.decimal, List.mem_append] at h
    rcases h with h | h
    · split at h
      · cases h
      · exact ih _ _ h
    · simp at h; subst h; exact isDigit_ofNat _ (by omega)

theorem showNat_digits (n : Nat) : ∀ ch ∈ showNat n, isDigit ch = true := decimal_digits _ _

theorem showNat_ne (n : Nat) : showNat n ≠ [] := by simp [showNat, Files.decimal]

theorem digits_showNat (n : Nat) : digits (showNat n) = n := Files.val_decimal (n + 1) n (by omega)

theorem takeWhile_all {α : Type} (p : α → Bool) : ∀ (l : List α), (∀ a ∈ l, p a = true) → l.takeWhile p = l ∧ l.dropWhile p = [] := by
  intro l
  induction l with
  | nil => intro _; exact ⟨rfl, rfl⟩
  | cons a l ih =>
    intro h
    obtain ⟨h1, h2⟩ := ih (fun b hb => h b (by simp [hb]))
    simp [List.takeWhile_cons, List.dropWhile_cons, h a (by simp), h1, h2]

theorem digit_facts {ch : Char} (h : isDigit ch = true) : (ch.toNat != 0) = true ∧ isSpace ch = false ∧ ch ≠ '-' ∧ ch ≠ '+' ∧ ch ≠ ' ' := by
  simp only [isDigit, Bool.and_eq_true, decide_eq_true_eq] at h
  have h1 : ch ≠ '-' := by intro e; subst e; exact absurd h.1 (by decide)
  have h2 : ch ≠ '+' := by intro e; subst e; exact absurd h.1 (by decide)
  have h3 : ch ≠ ' ' := by intro e; subst e; exact absurd h.1 (by decide)
  refine ⟨by simp; omega, ?_, h1, h2, h3⟩
  simp [isSpace, h3]; omega

theorem cstr_id {s : Str} (h : ∀ ch ∈ s, isDigit ch = true ∨ ch = '-') : cstr s = s := by
  refine (takeWhile_all _ s ?_).1
  intro ch hc
  rcases h ch hc with h | h
  · exact (digit_facts h).1
  · subst h; decide

theorem strtoul_nat (n : Nat) (hn : n < 2 ^ 64) : strtoul (showNat n) = (n, []) := by
  have hd := showNat_digits n
  have hne := showNat_ne n
  cases hs : showNat n with
  | nil => exact absurd hs hne
  | cons a l =>
    rw [hs] at hd
    have ha := digit_facts (hd a (by simp))
    obtain ⟨h1, h2⟩ := takeWhile_all isDigit (a :: l) hd
    have hv := digits_showNat n
    rw [hs] at hv
    have hns : (a :: l).dropWhile isSpace = a :: l := by simp [List.dropWhile_cons, ha.2.1]
    unfold strtoul
    simp only [hns, List.head?_cons, Option.some.injEq, ha.2.2.1, ha.2.2.2.1, or_false, if_false, h1, h2, hv, false_or]
    rw [if_neg (by simp), if_neg (by omega)]

theorem strtoul_neg (n : Nat) (h0 : 0 < n) (hn : n < 2 ^ 64) : strtoul ('-' :: showNat n) = (2 ^ 64 - n, []) := by
  have hd := showNat_digits n
  obtain ⟨h1, h2⟩ := takeWhile_all isDigit (showNat n) hd
  have hv := digits_showNat n
  have hns : ('-' :: showNat n).dropWhile isSpace = '-' :: showNat n := by
    rw [List.dropWhile_cons]; rfl
  unfold strtoul
  simp only [hns, List.head?_cons, true_or, if_true, List.drop_succ_cons, List.drop_zero, h1, h2, hv, showNat_ne, if_false]
  rw [if_neg (by omega)]
  simp
  omega

theorem parseNum_showNat (n : Nat) (hn : n < 2 ^ 64) : parseNum (showNat n) = .ok (toInt n) := by
  unfold parseNum
  rw [cstr_id (fun ch h => .inl (showNat_digits n ch h)), strtoul_nat n hn]
  simp

theorem parseNum_showInt (i : Int) (h1 : -2 ^ 31 ≤ i) (h2 : i < 2 ^ 31) : parseNum (showInt i) = .ok i := by
  unfold showInt
  by_cases h : i < 0
  · rw [if_pos h]
    unfold parseNum
    rw [cstr_id (by
      intro ch hc
      rcases List.mem_cons.mp hc with h | h
      · exact .inr h
      · exact .inl (showNat_digits _ _ h)), strtoul_neg _ (by omega) (by omega)]
    simp [toInt]
    omega
  · rw [if_neg h, parseNum_showNat _ (by omega)]
    simp [toInt]
    omega

theorem toUnsigned_toInt (d : Nat) (h : d < 2 ^ 32) : toUnsigned (toInt d) = d := by
  unfold toUnsigned toInt
  simp only
  split <;> omega

theorem showInt_no_space (i : Int) : ' ' ∉ showInt i := by
  unfold showInt
  intro h
  split at h
  · rcases List.mem_cons.mp h with h | h
    · revert h; decide
    · exact (digit_facts (showNat_digits _ _ h)).2.2.2.2 rfl
  · exact (digit_facts (showNat_digits _ _ h)).2.2.2.2 rfl

theorem showNat_no_space (n : Nat) : ' ' ∉ showNat n := fun h => (digit_facts (showNat_digits _ _ h)).2.2.2.2 rfl

/-- Every number read fits. -/
theorem toInt_range (v : Nat) : -2 ^ 31 ≤ toInt v ∧ toInt v < 2 ^ 31 := by
  unfold toInt
  simp only
  split <;> omega

/-! ### Single options -/

theorem pp_autogrow (c : Disk) : parseParam c "autogrow=no".toList = .ok { c with autogrow := false } := rfl
theorem pp_delete (c : Disk) : parseParam c "delete_on_exit".toList = .ok { c with deleteOnExit := true } := rfl
theorem pp_direct_off (c : Disk) : parseParam c "direct=off".toList = .ok { c with direct := .off } := rfl
theorem pp_direct_on (c : Disk) : parseParam c "direct=on".toList = .ok { c with direct := .on } := rfl
theorem pp_flash (c : Disk) : parseParam c "flash".toList = .runtimeError := rfl
theorem pp_raw (c : Disk) (h : c.ioImpl = "syscall".toList) : parseParam c "raw_device".toList = .ok { c with rawDevice := true } := by
  have : parseParam c "raw_device".toList = if c.ioImpl ≠ "syscall".toList then .runtimeError else .ok { c with rawDevice := true } := rfl
  rw [this, if_neg (by simp [h])]
theorem pp_unlink (c : Disk) (h : c.ioImpl = "syscall".toList ∨ c.ioImpl = "linuxaio".toList ∨ c.ioImpl = "mmap".toList) :
    parseParam c "unlink_on_open".toList = .ok { c with unlinkOnOpen := true } := by
  have : parseParam c "unlink_on_open".toList = if ¬ (c.ioImpl = "syscall".toList ∨ c.ioImpl = "linuxaio".toList ∨ c.ioImpl = "mmap".toList) then .runtimeError
    else .ok { c with unlinkOnOpen := true } := rfl
  rw [this, if_neg (fun hn => hn h)]

theorem pp_queue (c : Disk) (v : Str) : parseParam c ("queue=".toList ++ v) =
    if c.ioImpl = "linuxaio".toList then .runtimeError else (parseNum v).bind fun v => .ok { c with queue := v } := by
  have hs : split '=' ("queue=".toList ++ v) 2 (some 2) = ["queue".toList, v] := split_eq2 (k := "queue".toList) v (by decide)
  unfold parseParam
  simp only [hs]
  rfl

theorem pp_queue_length (c : Disk) (v : Str) : parseParam c ("queue_length=".toList ++ v) =
    if c.ioImpl ≠ "linuxaio".toList then .runtimeError else (parseNum v).bind fun v => .ok { c with queueLength := v } := by
  have hs : split '=' ("queue_length=".toList ++ v) 2 (some 2) = ["queue_length".toList, v] := split_eq2 (k := "queue_length".toList) v (by decide)
  unfold parseParam
  simp only [hs]
  rfl

theorem pp_devid (c : Disk) (v : Str) : parseParam c ("devid=".toList ++ v) =
    (parseNum v).bind fun v => .ok { c with deviceId := toUnsigned v } := by
  have hs : split '=' ("devid=".toList ++ v) 2 (some 2) = ["devid".toList, v] := split_eq2 (k := "devid".toList) v (by decide)
  unfold parseParam
  simp only [hs]
  rfl

theorem parseParams_append (l1 l2 : List Str) : ∀ c, parseParams c (l1 ++ l2) = (parseParams c l1).bind fun c' => parseParams c' l2 := by
  induction l1 with
  | nil => intro c; rfl
  | cons p l1 ih =>
    intro c
    rw [List.cons_append, parseParams, parseParams]
    cases parseParam c p <;> simp [Res.bind, ih]

theorem parseParams_step (b : Prop) [Decidable b] (p : Str) (rest : List Str) (c c' : Disk) (h1 : b → parseParam c p = .ok c') (h2 : ¬ b → c = c') :
    parseParams c ((if b then [p] else []) ++ rest) = parseParams c' rest := by
  split
  · rename_i hb; simp [parseParams, h1 hb, Res.bind]
  · rename_i hb; rw [h2 hb]; rfl

/-! ### Round trip -/

/-- The options printed. -/
def params (c : Disk) : List Str :=
  (if c.autogrow = false then ["autogrow=no".toList] else []) ++
  ((if c.deleteOnExit = true then ["delete_on_exit".toList] else []) ++
  ((if c.direct = .off then ["direct=off".toList] else []) ++
  ((if c.direct = .on then ["direct=on".toList] else []) ++
  ((if c.flash = true then ["flash".toList] else []) ++
  ((if c.queue ≠ -1 ∧ c.queue ≠ -2 then ["queue=".toList ++ showInt c.queue] else []) ++
  ((if c.deviceId ≠ 2 ^ 32 - 1 then ["devid=".toList ++ showNat c.deviceId] else []) ++
  ((if c.rawDevice = true then ["raw_device".toList] else []) ++
  ((if c.unlinkOnOpen = true then ["unlink_on_open".toList] else []) ++
  (if c.queueLength ≠ 0 then ["queue_length=".toList ++ showInt c.queueLength] else [])))))))))

theorem flatMap_opt (b : Prop) [Decidable b] (p : Str) (rest : List Str) :
    ((if b then [p] else []) ++ rest).flatMap (fun q => ' ' :: q) = (if b then ' ' :: p else []) ++ rest.flatMap (fun q => ' ' :: q) := by
  split <;> simp

theorem fileioString_eq (c : Disk) : fileioString c = c.ioImpl ++ (params c).flatMap (fun q => ' ' :: q) := by
  unfold fileioString params
  rw [flatMap_opt, flatMap_opt, flatMap_opt, flatMap_opt, flatMap_opt, flatMap_opt, flatMap_opt, flatMap_opt, flatMap_opt]
  have e : (if c.queueLength ≠ 0 then ["queue_length=".toList ++ showInt c.queueLength] else []).flatMap (fun q => ' ' :: q)
      = (if c.queueLength ≠ 0 then " queue_length=".toList ++ showInt c.queueLength else []) := by
    split
    · rw [List.flatMap_cons, List.flatMap_nil, List.append_nil]; rfl
    · rfl
  rw [e]
  have e1 : (if c.autogrow then [] else " autogrow=no".toList) = (if c.autogrow = false then ' ' :: "autogrow=no".toList else []) := by
    cases c.autogrow <;> rfl
  have e2 : directString c.direct = (if c.direct = .off then ' ' :: "direct=off".toList else []) ++ (if c.direct = .on then ' ' :: "direct=on".toList else []) := by
    cases c.direct <;> rfl
  rw [e1, e2]
  simp only [List.append_assoc]
  rfl

theorem params_no_space (c : Disk) : ∀ p ∈ params c, ' ' ∉ p := by
  intro p hp
  have hq := showInt_no_space c.queue
  have hl := showInt_no_space c.queueLength
  have hd := showNat_no_space c.deviceId
  have h1 : ' ' ∉ "queue=".toList ++ showInt c.queue := by simp [hq]
  have h2 : ' ' ∉ "queue_length=".toList ++ showInt c.queueLength := by simp [hl]
  have h3 : ' ' ∉ "devid=".toList ++ showNat c.deviceId := by simp [hd]
  unfold params at hp
  simp only [List.mem_append] at hp
  rcases hp with hp | hp | hp | hp | hp | hp | hp | hp | hp | hp <;> split at hp <;>
    first
    | (rw [List.mem_singleton] at hp; subst hp; first | assumption | decide)
    | cases hp

theorem parse_params {c : Disk} (h : Valid c) (hq : c.queue ≠ -2) :
    parseParams { path := c.path, size := c.size, ioImpl := c.ioImpl } (params c) = .ok c := by
  unfold params
  rw [parseParams_step _ _ _ _ { path := c.path, size := c.size, ioImpl := c.ioImpl, autogrow := c.autogrow }
    (fun hb => by rw [pp_autogrow, hb]) (fun hb => by rw [Bool.not_eq_false] at hb; rw [hb])]
  rw [parseParams_step _ _ _ _ { path := c.path, size := c.size, ioImpl := c.ioImpl, autogrow := c.autogrow, deleteOnExit := c.deleteOnExit }
    (fun hb => by rw [pp_delete, hb]) (fun hb => by rw [Bool.not_eq_true] at hb; rw [hb])]
  rw [parseParams_step _ _ _ _ { path := c.path, size := c.size, ioImpl := c.ioImpl, autogrow := c.autogrow, deleteOnExit := c.deleteOnExit, direct := (if c.direct = .off then .off else .try_ : Direct) }
    (fun hb => by rw [pp_direct_off, if_pos hb]) (fun hb => by rw [if_neg hb])]
  rw [parseParams_step _ _ _ _ { path := c.path, size := c.size, ioImpl := c.ioImpl, autogrow := c.autogrow, deleteOnExit := c.deleteOnExit, direct := c.direct }
    (fun hb => by rw [pp_direct_on, hb]) (fun hb => by cases hd : c.direct with
      | off => rfl
      | try_ => rfl
      | on => exact absurd hd hb)]
  rw [if_neg (by rw [h.noflash]; decide), List.nil_append]
  rw [parseParams_step _ _ _ _ { path := c.path, size := c.size, ioImpl := c.ioImpl, autogrow := c.autogrow, deleteOnExit := c.deleteOnExit, direct := c.direct, queue := c.queue }
    (fun hb => by rw [pp_queue, if_neg (h.queueAio hb.1), parseNum_showInt _ h.queue.1 h.queue.2]; rfl)
    (fun hb => by
      have : c.queue = -1 := by
        by_cases h1 : c.queue = -1
        · exact h1
        · exact absurd ⟨h1, hq⟩ hb
      rw [this])]
  rw [parseParams_step _ _ _ _ { path := c.path, size := c.size, ioImpl := c.ioImpl, autogrow := c.autogrow, deleteOnExit := c.deleteOnExit, direct := c.direct, queue := c.queue, deviceId := c.deviceId }
    (fun hb => by
      rw [pp_devid, parseNum_showNat _ (by have := h.devid; omega)]
      simp only [Res.bind, toUnsigned_toInt _ h.devid])
    (fun hb => by rw [Decidable.not_not] at hb; rw [hb])]
  rw [parseParams_step _ _ _ _ { path := c.path, size := c.size, ioImpl := c.ioImpl, autogrow := c.autogrow, deleteOnExit := c.deleteOnExit, direct := c.direct, queue := c.queue, deviceId := c.deviceId, rawDevice := c.rawDevice }
    (fun hb => by refine (pp_raw _ ?_).trans ?_; exact h.raw hb; rw [hb]) (fun hb => by rw [Bool.not_eq_true] at hb; rw [hb])]
  rw [parseParams_step _ _ _ _ { path := c.path, size := c.size, ioImpl := c.ioImpl, autogrow := c.autogrow, deleteOnExit := c.deleteOnExit, direct := c.direct, queue := c.queue, deviceId := c.deviceId, rawDevice := c.rawDevice, unlinkOnOpen := c.unlinkOnOpen }
    (fun hb => by refine (pp_unlink _ ?_).trans ?_; exact h.unlink hb; rw [hb]) (fun hb => by rw [Bool.not_eq_true] at hb; rw [hb])]
  have hl := parseParams_step (c.queueLength ≠ 0) ("queue_length=".toList ++ showInt c.queueLength) []
    { path := c.path, size := c.size, ioImpl := c.ioImpl, autogrow := c.autogrow, deleteOnExit := c.deleteOnExit, direct := c.direct, queue := c.queue, deviceId := c.deviceId, rawDevice := c.rawDevice, unlinkOnOpen := c.unlinkOnOpen }
    { path := c.path, size := c.size, ioImpl := c.ioImpl, autogrow := c.autogrow, deleteOnExit := c.deleteOnExit, direct := c.direct, queue := c.queue, deviceId := c.deviceId, rawDevice := c.rawDevice, unlinkOnOpen := c.unlinkOnOpen, queueLength := c.queueLength }
    (fun hb => by rw [pp_queue_length, if_neg (fun hn => hn (h.lenAio hb)), parseNum_showInt _ h.len.1 h.len.2]; rfl)
    (fun hb => by rw [Decidable.not_not] at hb; rw [hb])
  rw [List.append_nil] at hl
  rw [hl]
  have hnf := h.noflash
  obtain ⟨path, size, ioImpl, autogrow, deleteOnExit, direct, flash, queue, deviceId, rawDevice, unlinkOnOpen, queueLength⟩ := c
  simp only at hnf
  subst hnf
  rfl

theorem round_trip {c : Disk} (h : Valid c) (hq : c.queue ≠ -2) : mkDisk c.path c.size (fileioString c) = .ok c := by
  unfold mkDisk parseFileio
  rw [fileioString_eq]
  simp only
  have hp := parse_params h hq
  have hns := params_no_space c
  have hdrop : (c.ioImpl ++ (params c).flatMap (fun q => ' ' :: q)).dropWhile (· = ' ') = c.ioImpl ++ (params c).flatMap (fun q => ' ' :: q) := by
    cases hi : c.ioImpl with
    | nil => exact absurd hi h.impl
    | cons a l =>
      have : a ≠ ' ' := by intro e; exact h.blank (by rw [hi, e]; simp)
      simp [List.dropWhile_cons, this]
  have hall : ∀ a ∈ c.ioImpl, (decide (a ≠ ' ')) = true := by
    intro a ha
    simp only [decide_eq_true_eq]
    intro e; exact h.blank (e ▸ ha)
  rw [hdrop, if_neg (by simp [h.impl])]
  rw [List.dropWhile_append_of_pos hall]
  cases hpar : params c with
  | nil =>
    rw [hpar] at hp
    simp only [List.flatMap_nil, List.dropWhile_nil, List.append_nil]
    simpa [parseParams] using hp
  | cons p ps =>
    rw [hpar] at hp hns
    have h1 : ((p :: ps).flatMap (fun q => ' ' :: q)).dropWhile (fun x => decide (x ≠ ' ')) = ' ' :: (p ++ ps.flatMap (fun q => ' ' :: q)) := by
      simp [List.dropWhile_cons]
    rw [h1]
    simp only
    rw [List.takeWhile_append_of_pos hall]
    have h2 : ((p :: ps).flatMap (fun q => ' ' :: q)).takeWhile (fun x => decide (x ≠ ' ')) = [] := by
      simp [List.takeWhile_cons]
    rw [h2, List.append_nil, split_join _ _ (hns p (by simp)) (fun q hq => hns q (by simp [hq]))]
    exact hp

/-! ### What is accepted -/

theorem parseNum_cases (s : Str) : parseNum s = .runtimeError ∨ ∃ v, parseNum s = .ok (toInt v) := by
  unfold parseNum
  simp only
  split
  · exact .inl rfl
  · exact .inr ⟨_, rfl⟩

theorem toUnsigned_lt (i : Int) : toUnsigned i < 2 ^ 32 := by unfold toUnsigned; omega

/-- An error, or a change that keeps the combination valid. -/
def Fine (c : Disk) (r : Res Disk) : Prop := r = .runtimeError ∨
    ∃ c', r = .ok c' ∧ c'.ioImpl = c.ioImpl ∧ c'.flash = c.flash ∧ c'.path = c.path ∧ c'.size = c.size ∧ (Valid c → Valid c')

theorem fine_ite {c : Disk} {b : Prop} [Decidable b] {x y : Res Disk} (hx : b → Fine c x) (hy : ¬ b → Fine c y) : Fine c (if b then x else y) := by
  by_cases h : b
  · rw [if_pos h]; exact hx h
  · rw [if_neg h]; exact hy h

theorem fine_err {c : Disk} : Fine c .runtimeError := .inl rfl

theorem fine_num {c : Disk} {s : Str} {f : Int → Res Disk} (h : ∀ v, Fine c (f (toInt v))) : Fine c ((parseNum s).bind f) := by
  rcases parseNum_cases s with e | ⟨v, e⟩
  · rw [e]; exact fine_err
  · rw [e]; exact h v

theorem fine_keep {c c' : Disk} (e1 : c'.ioImpl = c.ioImpl) (e2 : c'.flash = c.flash) (e3 : c'.queue = c.queue) (e4 : c'.deviceId = c.deviceId)
    (e5 : c'.rawDevice = c.rawDevice) (e6 : c'.unlinkOnOpen = c.unlinkOnOpen) (e7 : c'.queueLength = c.queueLength) (e8 : c'.path = c.path)
    (e9 : c'.size = c.size) : Fine c (.ok c') := by
  refine .inr ⟨c', rfl, e1, e2, e8, e9, ?_⟩
  intro h
  constructor
  · rw [e1]; exact h.impl
  · rw [e1]; exact h.blank
  · rw [e2]; exact h.noflash
  · rw [e3]; exact h.queue
  · rw [e1, e3]; exact h.queueAio
  · rw [e4]; exact h.devid
  · rw [e1, e5]; exact h.raw
  · rw [e1, e6]; exact h.unlink
  · rw [e7]; exact h.len
  · rw [e1, e7]; exact h.lenAio

theorem fine_option (c : Disk) (p eq0 eq1 : Str) : Fine c (parseOption c p eq0 eq1) := by
  unfold parseOption
  refine fine_ite (fun _ => fine_keep rfl rfl rfl rfl rfl rfl rfl rfl rfl) fun _ => ?_
  refine fine_ite (fun _ => ?_) fun _ => ?_
  · repeat' (first | exact fine_err | exact fine_keep rfl rfl rfl rfl rfl rfl rfl rfl rfl | refine fine_ite (fun _ => ?_) fun _ => ?_)
  refine fine_ite (fun _ => fine_keep rfl rfl rfl rfl rfl rfl rfl rfl rfl) fun _ => ?_
  refine fine_ite (fun _ => ?_) fun _ => ?_
  · repeat' (first | exact fine_err | exact fine_keep rfl rfl rfl rfl rfl rfl rfl rfl rfl | refine fine_ite (fun _ => ?_) fun _ => ?_)
  refine fine_ite (fun _ => fine_ite (fun _ => fine_err) fun hio => fine_num fun v => ?_) fun _ => ?_
  · exact .inr ⟨_, rfl, rfl, rfl, rfl, rfl, fun h => ⟨h.impl, h.blank, h.noflash, toInt_range v, fun _ => hio, h.devid, h.raw, h.unlink, h.len, h.lenAio⟩⟩
  refine fine_ite (fun _ => fine_ite (fun _ => fine_err) fun hio => fine_num fun v => ?_) fun _ => ?_
  · rw [Decidable.not_not] at hio
    exact .inr ⟨_, rfl, rfl, rfl, rfl, rfl, fun h => ⟨h.impl, h.blank, h.noflash, h.queue, h.queueAio, h.devid, h.raw, h.unlink, toInt_range v, fun _ => hio⟩⟩
  refine fine_ite (fun _ => fine_num fun v => ?_) fun _ => ?_
  · exact .inr ⟨_, rfl, rfl, rfl, rfl, rfl, fun h => ⟨h.impl, h.blank, h.noflash, h.queue, h.queueAio, toUnsigned_lt _, h.raw, h.unlink, h.len, h.lenAio⟩⟩
  refine fine_ite (fun _ => fine_ite (fun _ => fine_err) fun hio => ?_) fun _ => ?_
  · rw [Decidable.not_not] at hio
    exact .inr ⟨_, rfl, rfl, rfl, rfl, rfl, fun h => ⟨h.impl, h.blank, h.noflash, h.queue, h.queueAio, h.devid, fun _ => hio, h.unlink, h.len, h.lenAio⟩⟩
  refine fine_ite (fun _ => fine_ite (fun _ => fine_err) fun hio => ?_) fun _ => fine_err
  rw [Decidable.not_not] at hio
  exact .inr ⟨_, rfl, rfl, rfl, rfl, rfl, fun h => ⟨h.impl, h.blank, h.noflash, h.queue, h.queueAio, h.devid, h.raw, fun _ => hio, h.len, h.lenAio⟩⟩

theorem parseParam_cases (c : Disk) (p : Str) : Fine c (parseParam c p) := by
  obtain ⟨eq0, h0⟩ := index_split '=' p 2 0 (some 2) (by omega)
  obtain ⟨eq1, h1⟩ := index_split '=' p 2 1 (some 2) (by omega)
  have hpp : parseParam c p = parseOption c p eq0 eq1 := by
    unfold parseParam
    simp only
    rw [h0, h1]
    rfl
  rw [hpp]
  exact fine_option c p eq0 eq1

theorem parseParams_cases : ∀ (ps : List Str) (c : Disk), parseParams c ps = .runtimeError ∨
    ∃ c', parseParams c ps = .ok c' ∧ c'.ioImpl = c.ioImpl ∧ c'.flash = c.flash ∧ c'.path = c.path ∧ c'.size = c.size ∧ (Valid c → Valid c') := by
  intro ps
  induction ps with
  | nil => intro c; exact .inr ⟨c, rfl, rfl, rfl, rfl, rfl, id⟩
  | cons p ps ih =>
    intro c
    rw [parseParams]
    rcases parseParam_cases c p with h | ⟨c1, h, e1, e2, e3, e4, e5⟩
    · rw [h]; exact .inl rfl
    · rw [h]
      rcases ih c1 with h' | ⟨c2, h', f1, f2, f3, f4, f5⟩
      · exact .inl h'
      · exact .inr ⟨c2, h', f1.trans e1, f2.trans e2, f3.trans e3, f4.trans e4, fun h => f5 (e5 h)⟩

theorem mem_takeWhile {α : Type} (p : α → Bool) : ∀ (l : List α) (a : α), a ∈ l.takeWhile p → p a = true := by
  intro l
  induction l with
  | nil => intro a h; simp at h
  | cons b l ih =>
    intro a h
    rw [List.takeWhile_cons] at h
    split at h
    · rename_i hb
      rcases List.mem_cons.mp h with h | h
      · subst h; exact hb
      · exact ih a h
    · cases h

/-- `parse_fileio`: `std::out_of_range` for a blank text, otherwise an error or a configuration. -/
theorem parseFileio_cases (c : Disk) : (parseFileio c = .outOfRange ∧ ∀ ch ∈ c.ioImpl, ch = ' ') ∨ ((∃ ch ∈ c.ioImpl, ch ≠ ' ') ∧
    (parseFileio c = .runtimeError ∨ ∃ c', parseFileio c = .ok c' ∧ c'.path = c.path ∧ c'.size = c.size ∧ c'.flash = c.flash ∧
      (c.flash = false → c.queue = -1 → c.deviceId = 2 ^ 32 - 1 → c.rawDevice = false → c.unlinkOnOpen = false → c.queueLength = 0 → Valid c'))) := by
  unfold parseFileio
  simp only
  by_cases hb : c.ioImpl.dropWhile (· = ' ') = []
  · left
    rw [if_pos hb]
    refine ⟨rfl, ?_⟩
    intro ch hch
    have : c.ioImpl.takeWhile (· = ' ') ++ c.ioImpl.dropWhile (· = ' ') = c.ioImpl := List.takeWhile_append_dropWhile
    rw [hb, List.append_nil] at this
    rw [← this] at hch
    simpa using mem_takeWhile _ _ _ hch
  · right
    rw [if_neg hb]
    generalize hio : c.ioImpl.dropWhile (· = ' ') = io at hb
    have hhead : ∀ a l, io = a :: l → a ≠ ' ' ∧ a ∈ c.ioImpl := by
      intro a l h
      have h1 := List.head?_dropWhile_not (fun x => decide (x = ' ')) c.ioImpl
      rw [hio, h] at h1
      simp at h1
      refine ⟨h1, ?_⟩
      have : a ∈ c.ioImpl.dropWhile (· = ' ') := by rw [hio, h]; simp
      exact (List.dropWhile_sublist _).subset this
    constructor
    · cases io with
      | nil => exact absurd rfl hb
      | cons a l => exact ⟨a, (hhead a l rfl).2, (hhead a l rfl).1⟩
    · have hv : ∀ io' : Str, io' ≠ [] → ' ' ∉ io' → c.flash = false → c.queue = -1 → c.deviceId = 2 ^ 32 - 1 → c.rawDevice = false → c.unlinkOnOpen = false →
          c.queueLength = 0 → Valid { c with ioImpl := io' } := by
        intro io' h1 h2 h3 h4 h5 h6 h7 h8
        exact ⟨h1, h2, h3, by simp [h4], fun h => absurd h4 h, by simp [h5], fun h => (by simp [h6] at h), fun h => (by simp [h7] at h),
          by simp [h8], fun h => absurd h8 h⟩
      cases hd : io.dropWhile (· ≠ ' ') with
      | nil =>
        simp only
        refine .inr ⟨_, rfl, rfl, rfl, rfl, hv io hb ?_⟩
        intro hm
        have : io.takeWhile (· ≠ ' ') ++ io.dropWhile (· ≠ ' ') = io := List.takeWhile_append_dropWhile
        rw [hd, List.append_nil] at this
        rw [← this] at hm
        simpa using mem_takeWhile _ _ _ hm
      | cons x paramstr =>
        simp only
        rcases parseParams_cases (split ' ' paramstr 0 none) { c with ioImpl := io.takeWhile (· ≠ ' ') } with h | ⟨c', h, e1, e2, e3, e4, e5⟩
        · exact .inl h
        · refine .inr ⟨c', h, e3, e4, e2, ?_⟩
          intro h3 h4 h5 h6 h7 h8
          refine e5 (hv _ ?_ ?_ h3 h4 h5 h6 h7 h8)
          · cases io with
            | nil => exact absurd rfl hb
            | cons a l => simp [List.takeWhile_cons, (hhead a l rfl).1]
          · intro hm
            simpa using mem_takeWhile _ _ _ hm

theorem split_comma {a b : Str} (t : Str) (ha : ',' ∉ a) (hb : ',' ∉ b) : split ',' (a ++ ',' :: (b ++ ',' :: t)) 3 (some 3) = [a, b, t] := by
  unfold split
  simp only
  rw [splitAux_field _ _ _ _ _ _ ha, splitAux_sep _ _ _ _ _ (by intro n h; injection h with h; subst h; simp),
    splitAux_field _ _ _ _ _ _ hb, splitAux_sep _ _ _ _ _ (by intro n h; injection h with h; subst h; simp), splitAux_last _ _ _ _ _ (by simp)]
  simp

/-- `parse_line` in one formula: token, path, size and file I/O text. -/
theorem parseLine_eq (env : Env) (c : Disk) (line : Str) : ∃ tok rest f0 f1 f2, index (split '=' line 2 (some 2)) 0 = .ok tok ∧
    index (split '=' line 2 (some 2)) 1 = .ok rest ∧ index (split ',' rest 3 (some 3)) 0 = .ok f0 ∧ index (split ',' rest 3 (some 3)) 1 = .ok f1 ∧
    index (split ',' rest 3 (some 3)) 2 = .ok f2 ∧
    parseLine env c line = if tok ≠ "disk".toList ∧ tok ≠ "flash".toList then .runtimeError else match env.units f1 with
      | none => .runtimeError
      | some size => parseFileio { path := replacePid (showNat env.pid) (env.expand f0), size := size, ioImpl := f2, deleteOnExit := decide (size = 0), flash := decide (tok ≠ "disk".toList), rawDevice := c.rawDevice, queueLength := c.queueLength } := by
  obtain ⟨tok, h0⟩ := index_split '=' line 2 0 (some 2) (by omega)
  obtain ⟨rest, h1⟩ := index_split '=' line 2 1 (some 2) (by omega)
  obtain ⟨f0, g0⟩ := index_split ',' rest 3 0 (some 3) (by omega)
  obtain ⟨f1, g1⟩ := index_split ',' rest 3 1 (some 3) (by omega)
  obtain ⟨f2, g2⟩ := index_split ',' rest 3 2 (some 3) (by omega)
  refine ⟨tok, rest, f0, f1, f2, h0, h1, g0, g1, g2, ?_⟩
  unfold parseLine parseToken
  simp only [h0, Res.bind]
  by_cases ht : tok = "disk".toList
  · rw [if_pos ht, if_neg (by simp [ht])]
    simp only [h1, g0, g1, g2]
    cases env.units f1 with
    | none => rfl
    | some size =>
      simp only
      by_cases hz : size = 0
      · simp [hz, ht]
      · simp [hz, ht]
  · rw [if_neg ht]
    by_cases hf : tok = "flash".toList
    · rw [if_pos hf, if_neg (by simp [hf])]
      simp only [h1, g0, g1, g2]
      cases env.units f1 with
      | none => rfl
      | some size =>
        simp only
        by_cases hz : size = 0
        · simp [hz, hf]
        · simp [hz, hf]
    · rw [if_neg hf, if_pos ⟨ht, hf⟩]

/-! ### Ranges -/

/-- Regular disks first, then `first_flash` of them counted. -/
structure Parted (c : Cfg) : Prop where
  init : c.isInit = true
  reg : ∃ r f, c.disks = r ++ f ∧ (∀ d ∈ r, d.flash = false) ∧ (∀ d ∈ f, d.flash = true) ∧ c.firstFlash = r.length % 2 ^ 32

theorem loadLines_parts (env : Env) : ∀ (lines : List Str) (disks fl disks' fl' : List Disk), (∀ d ∈ disks, d.flash = false) → (∀ d ∈ fl, d.flash = true) →
    loadLines env lines disks fl = (disks', some fl') → (∀ d ∈ disks', d.flash = false) ∧ (∀ d ∈ fl', d.flash = true) := by
  intro lines
  induction lines with
  | nil =>
    intro disks fl disks' fl' h1 h2 h
    simp only [loadLines, Prod.mk.injEq, Option.some.injEq] at h
    rw [← h.1, ← h.2]
    exact ⟨h1, h2⟩
  | cons line lines ih =>
    intro disks fl disks' fl' h1 h2 h
    rw [loadLines] at h
    split at h
    · exact ih _ _ _ _ h1 h2 h
    · split at h
      · rename_i d _
        split at h
        · rename_i hd
          refine ih _ _ _ _ h1 ?_ h
          intro x hx
          rcases List.mem_append.mp hx with hx | hx
          · exact h2 x hx
          · simp at hx; subst hx; exact hd
        · rename_i hd
          refine ih _ _ _ _ ?_ h2 h
          intro x hx
          rcases List.mem_append.mp hx with hx | hx
          · exact h1 x hx
          · simp at hx; subst hx; simpa using hd
      · simp at h

theorem loadFile_parts (env : Env) {c c' : Cfg} (file : Option (List Str)) (hd : ∀ d ∈ c.disks, d.flash = false) (hf : c.firstFlash = c.disks.length % 2 ^ 32)
    (h : loadFile env c file = (c', false)) : c'.isInit = c.isInit ∧
      ∃ r f, c'.disks = r ++ f ∧ (∀ d ∈ r, d.flash = false) ∧ (∀ d ∈ f, d.flash = true) ∧ c'.firstFlash = r.length % 2 ^ 32 := by
  cases file with
  | none =>
    simp only [loadFile, Prod.mk.injEq, and_true] at h
    subst h
    refine ⟨rfl, _, [], (List.append_nil _).symm, ?_, by simp, ?_⟩
    · intro d hx
      rcases List.mem_append.mp hx with hx | hx
      · exact hd d hx
      · simp at hx; subst hx; rfl
    · simp only [loadDefault, addDisk, hf, List.length_append, List.length_singleton]; omega
  | some lines =>
    simp only [loadFile] at h
    cases hl : loadLines env lines c.disks [] with
    | mk disks o =>
      rw [hl] at h
      cases o with
      | none => simp at h
      | some fl =>
        simp only [Prod.mk.injEq] at h
        obtain ⟨h1, h2⟩ := loadLines_parts env lines _ _ _ _ hd (by simp) hl
        rw [← h.1]
        exact ⟨rfl, disks, fl, rfl, h1, h2, rfl⟩

theorem init_parts (env : Env) {g m : Nat} {c : Cfg} (found : Option (Option (List Str))) (h : init env (construct g m) found = (c, false)) : Parted c := by
  unfold init construct findConfig at h
  simp only [Bool.false_eq_true, if_false, if_true] at h
  cases found with
  | none =>
    simp only [Bool.false_eq_true, if_false, Prod.mk.injEq, and_true] at h
    subst h
    exact ⟨rfl, _, [], (List.append_nil _).symm, by simp [loadDefault, addDisk], by simp, by simp [loadDefault, addDisk]⟩
  | some file =>
    simp only at h
    split at h
    · rename_i hr; rw [h] at hr; cases hr
    · rename_i hr
      simp only [Prod.mk.injEq, and_true] at h
      obtain ⟨_, h2⟩ := loadFile_parts env (c := { disks := [], firstFlash := 0, isInit := false, maxDev := m }) (c' := (loadFile env { disks := [], firstFlash := 0, isInit := false, maxDev := m } file).1) file
        (by simp) (by simp) (by
          cases hx : loadFile env { disks := [], firstFlash := 0, isInit := false, maxDev := m } file with
          | mk a b => rw [hx] at hr; simp at hr; rw [hr])
      subst h
      exact ⟨rfl, h2⟩

theorem init_maxDev (env : Env) {c0 c : Cfg} (found : Option (Option (List Str))) (h0 : c0.isInit = false) (h : init env c0 found = (c, false)) : c.maxDev = 0 := by
  unfold init at h
  rw [if_neg (by simp [h0])] at h
  simp only at h
  generalize (if c0.disks = [] then findConfig env { c0 with firstFlash := 0 } found else ({ c0 with firstFlash := 0 }, false)) = r at h
  split at h
  · rename_i hr; rw [h] at hr; cases hr
  · simp only [Prod.mk.injEq, and_true] at h
    rw [← h]

theorem orderly_parted {env : Env} {c : Cfg} (h : Orderly env c) : Parted c := by
  induction h with
  | start found h => exact init_parts env found h
  | @add c d _ hd hdf ih =>
    obtain ⟨r, f, h1, h2, h3, h4⟩ := ih.reg
    have hf : f = [] := by
      cases f with
      | nil => rfl
      | cons x f =>
        have h5 := h3 x (by simp)
        rw [hd x (by rw [h1]; simp)] at h5
        cases h5
    subst hf
    refine ⟨ih.init, r ++ [d], [], by simp [addDisk, h1], ?_, by simp, by simp [addDisk, h4]⟩
    intro x hx
    rcases List.mem_append.mp hx with hx | hx
    · exact h2 x hx
    · simp at hx; subst hx; exact hdf
  | @load c c' file _ hd hl ih =>
    obtain ⟨r, f, h1, h2, h3, h4⟩ := ih.reg
    have hf : f = [] := by
      cases f with
      | nil => rfl
      | cons x f =>
        have h5 := h3 x (by simp)
        rw [hd x (by rw [h1]; simp)] at h5
        cases h5
    subst hf
    rw [List.append_nil] at h1
    obtain ⟨h5, h6⟩ := loadFile_parts env file hd (by rw [h1, h4]) hl
    exact ⟨h5.trans ih.init, h6⟩
  | @init c found _ ih =>
    unfold Config.init
    rw [if_pos ih.init]
    exact ih

theorem replacePid_first (pid : Str) : ∀ (a b : Str), (∀ x y, a ++ ['$'] ≠ x ++ '$' :: '$' :: y) → replacePid pid (a ++ '$' :: '$' :: b) = a ++ pid ++ b.drop 1 := by
  intro a
  induction a with
  | nil => intro b _; simp [replacePid]
  | cons ch a ih =>
    intro b h
    rw [List.cons_append, replacePid]
    rw [if_neg]
    · rw [ih b (fun x y e => h (ch :: x) y (by rw [List.cons_append, e]; rfl))]
      rfl
    · rintro ⟨h1, h2⟩
      cases a with
      | nil => exact h [] [] (by rw [h1]; rfl)
      | cons d a =>
        simp at h2
        exact h [] (a ++ ['$']) (by rw [h1, h2]; rfl)

theorem replacePid_none (pid : Str) : ∀ s : Str, (∀ x y, s ≠ x ++ '$' :: '$' :: y) → replacePid pid s = s := by
  intro s
  induction s with
  | nil => intro _; rfl
  | cons ch s ih =>
    intro h
    rw [replacePid, if_neg]
    · rw [ih (fun x y e => h (ch :: x) y (by rw [e]; rfl))]
    · rintro ⟨h1, h2⟩
      cases s with
      | nil => simp at h2
      | cons d s => simp at h2; exact h [] s (by rw [h1, h2]; rfl)

end Foxxll.Config
