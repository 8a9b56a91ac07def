import Verif.Proofs.ConfigOptions

set_option linter.unusedSimpArgs false

/-
Properties C69, C70: the option words and numbers of a disk configuration.
-/
namespace Foxxll.Config

/-- C69, words: each spelling sets its option to the value it names and changes nothing else. -/
theorem C69_words (c : Disk) :
    (∀ w ∈ ["autogrow", "autogrow=on", "autogrow=yes"], parseParam c w.toList = .ok { c with autogrow := true }) ∧
    (∀ w ∈ ["noautogrow", "autogrow=off", "autogrow=no"], parseParam c w.toList = .ok { c with autogrow := false }) ∧
    (∀ w ∈ ["direct", "direct=on", "direct=yes"], parseParam c w.toList = .ok { c with direct := .on }) ∧
    (∀ w ∈ ["nodirect", "direct=off", "direct=no"], parseParam c w.toList = .ok { c with direct := .off }) ∧
    parseParam c "direct=try".toList = .ok { c with direct := .try_ } ∧
    (∀ w ∈ ["delete", "delete_on_exit"], parseParam c w.toList = .ok { c with deleteOnExit := true }) ∧
    parseParam c [] = .ok c := by
  refine ⟨?_, ?_, ?_, ?_, rfl, ?_, rfl⟩ <;> intro w hw <;>
    simp only [List.mem_cons, List.not_mem_nil, or_false] at hw
  · rcases hw with h | h | h <;> rw [h] <;> rfl
  · rcases hw with h | h | h <;> rw [h] <;> rfl
  · rcases hw with h | h | h <;> rw [h] <;> rfl
  · rcases hw with h | h | h <;> rw [h] <;> rfl
  · rcases hw with h | h <;> rw [h] <;> rfl

/-- C69, words restricted to some implementations: refused for all others. -/
theorem C69_restricted (c : Disk) :
    (∀ w ∈ ["unlink", "unlink_on_open"], parseParam c w.toList =
      if c.ioImpl = "syscall".toList ∨ c.ioImpl = "linuxaio".toList ∨ c.ioImpl = "mmap".toList then .ok { c with unlinkOnOpen := true }
      else .runtimeError) ∧
    parseParam c "raw_device".toList = (if c.ioImpl = "syscall".toList then .ok { c with rawDevice := true } else .runtimeError) ∧
    (c.ioImpl = "linuxaio".toList → ∀ v, parseParam c ("queue=".toList ++ v) = .runtimeError) ∧
    (c.ioImpl ≠ "linuxaio".toList → ∀ v, parseParam c ("queue_length=".toList ++ v) = .runtimeError) := by
  refine ⟨?_, ?_, ?_, ?_⟩
  · intro w hw
    simp only [List.mem_cons, List.not_mem_nil, or_false] at hw
    have e : ∀ w, w = "unlink" ∨ w = "unlink_on_open" → parseParam c w.toList =
        if ¬ (c.ioImpl = "syscall".toList ∨ c.ioImpl = "linuxaio".toList ∨ c.ioImpl = "mmap".toList) then .runtimeError
        else .ok { c with unlinkOnOpen := true } := by
      intro w hw; rcases hw with h | h <;> rw [h] <;> rfl
    rw [e w hw]
    by_cases h : c.ioImpl = "syscall".toList ∨ c.ioImpl = "linuxaio".toList ∨ c.ioImpl = "mmap".toList
    · rw [if_neg (fun hn => hn h), if_pos h]
    · rw [if_pos h, if_neg h]
  · have e : parseParam c "raw_device".toList = if c.ioImpl ≠ "syscall".toList then .runtimeError else .ok { c with rawDevice := true } := rfl
    rw [e]
    by_cases h : c.ioImpl = "syscall".toList
    · rw [if_neg (fun hn => hn h), if_pos h]
    · rw [if_pos h, if_neg h]
  · intro h v; rw [pp_queue, if_pos h]
  · intro h v; rw [pp_queue_length, if_pos h]

example : parseParam { ioImpl := "mmap".toList } "raw_device".toList = .runtimeError ∧
    parseParam { ioImpl := "syscall".toList } "unlink".toList = .ok { ioImpl := "syscall".toList, unlinkOnOpen := true } := ⟨rfl, rfl⟩

/-- A decimal number as text: blanks, a sign, digits. -/
def Decimal (s : Str) : Prop :=
  ∃ sp sg ds, s = sp ++ sg ++ ds ∧ (∀ ch ∈ sp, isSpace ch = true) ∧ (sg = [] ∨ sg = ['-'] ∨ sg = ['+']) ∧
    ds ≠ [] ∧ (∀ ch ∈ ds, isDigit ch = true)

/-- The full property: a numeric option takes exactly texts of numbers, with their value. -/
def NumbersExact : Prop := ∀ s v, parseNum s = .ok v → Decimal s ∧ ∀ n : Nat, s = showNat n → v = (n : Int)

/-- C70 is false: an empty text is accepted as 0, and 2^32 as 0. -/
theorem C70_false : ¬ NumbersExact ∧ parseNum [] = .ok 0 ∧ parseNum (showNat (2 ^ 32)) = .ok 0 := by
  have h0 : parseNum [] = .ok 0 := rfl
  refine ⟨fun h => ?_, h0, by rw [parseNum_showNat _ (by decide)]; rfl⟩
  obtain ⟨⟨sp, sg, ds, e, _, _, hd, _⟩, _⟩ := h [] 0 h0
  exact hd (List.append_eq_nil_iff.1 e.symm).2

/-- C70, partial: an accepted text without NUL is empty or a decimal number; a number in the range of `int`
is taken with its value.  Missing: the empty text, and numbers out of range, which are truncated. -/
theorem C70_partial (s : Str) (hz : ∀ ch ∈ s, ch.toNat ≠ 0) (v : Int) (h : parseNum s = .ok v) :
    (s = [] ∨ Decimal s) ∧ ∀ i : Int, -2 ^ 31 ≤ i → i < 2 ^ 31 → s = showInt i → v = i := by
  constructor
  · have hc : cstr s = s := (takeWhile_all _ s (fun ch hch => by simpa using hz ch hch)).1
    unfold parseNum at h
    rw [hc] at h
    simp only at h
    split at h
    · cases h
    · rename_i hr
      have hr' : (strtoul s).2 = [] := by simpa using hr
      obtain ⟨sp, sg, u, e, h1, h2, h3⟩ := strtoul_form s
      rw [h3] at hr'
      by_cases hd : u.takeWhile isDigit = []
      · rw [if_pos hd] at hr'; exact .inl hr'
      · rw [if_neg hd] at hr'
        exact .inr ⟨sp, sg, u, e, h1, h2, fun e => hd (by rw [e]; rfl), all_of_dropWhile_nil hr'⟩
  · intro i h1 h2 e
    rw [e, parseNum_showInt i h1 h2] at h
    cases h; rfl

example : parseNum " +17".toList = .ok 17 ∧ parseNum "17x".toList = .runtimeError ∧ parseNum "-".toList = .runtimeError := ⟨rfl, rfl, rfl⟩

/-- C70, numbers out of range: the text of any natural number is accepted; the value is reduced modulo 2^32 to the range of `int`, and is -1 from 2^64 on. -/
theorem C70_range (n : Nat) : ∃ v : Int, parseNum (showNat n) = .ok v ∧ -2 ^ 31 ≤ v ∧ v < 2 ^ 31 ∧
    (n < 2 ^ 64 → ∃ q : Int, v = (n : Int) - q * 2 ^ 32) ∧ (2 ^ 64 ≤ n → v = -1) := by
  by_cases hn : n < 2 ^ 64
  · refine ⟨toInt n, parseNum_showNat n hn, ?_, ?_, fun _ => ?_, fun h => by omega⟩
    · unfold toInt; simp only; split <;> omega
    · unfold toInt; simp only; split <;> omega
    · unfold toInt
      simp only
      split
      · exact ⟨(n / 2 ^ 32 : Nat), by omega⟩
      · exact ⟨(n / 2 ^ 32 : Nat) + 1, by omega⟩
  · refine ⟨-1, ?_, by decide, by decide, fun h => absurd h hn, fun _ => rfl⟩
    unfold parseNum
    rw [cstr_id (fun ch h => .inl (showNat_digits n ch h)), strtoul_big n (by omega)]
    rfl

/-- A queue number of 20 digits is that of the default queue. -/
example : parseNum "queue=99999999999999999999".toList = .runtimeError ∧ parseNum "99999999999999999999".toList = .ok (-1) := ⟨rfl, rfl⟩

end Foxxll.Config
