import Verif.Proofs.Config
/-
Properties C36-C39, C65 and C66: the disk configuration.
-/
set_option linter.unusedSimpArgs false
set_option linter.unusedVariables false
namespace Foxxll.Config

/-- Surroundings for the examples: no variables, sizes in plain bytes. -/
def plainEnv : Env := { pid := 42, expand := id, units := fun s => if (strtoul s).2 = [] then some (strtoul s).1 else none }

/-! ### C36 -/

/-- C36 is false: for a flash disk the word ` flash` is printed, which the parser refuses. -/
theorem C36_false : ¬ ∀ (env : Env) (line : Str) (c : Disk), parseLine env {} line = .ok c → mkDisk c.path c.size (fileioString c) = .ok c := by
  intro h
  have h1 := h plainEnv "flash=/d,5,syscall".toList { path := "/d".toList, size := 5, ioImpl := "syscall".toList, flash := true } rfl
  have h2 : mkDisk "/d".toList 5 "syscall flash".toList = .runtimeError := rfl
  exact absurd (h2.symm.trans h1) (by intro e; cases e)

/-- Two further reasons, both for settings that `create_file` makes itself for linuxaio
(create_file.cpp:119, 138-142): the queue number is not printed, and `raw_device` is printed but
refused. -/
theorem C36_false_linuxaio : mkDisk [] 0 (fileioString { ioImpl := "linuxaio".toList, queue := -2 }) = .ok { ioImpl := "linuxaio".toList, queue := -1 } ∧
    mkDisk [] 0 (fileioString { ioImpl := "linuxaio".toList, rawDevice := true }) = .runtimeError := ⟨rfl, rfl⟩

/-- C36 as far as it is true: every valid combination of options of a regular disk, with any
values, is read back unchanged.  Missing: flash disks, combinations the parser refuses, and queue
number -2, where it is false. -/
theorem C36_partial {c : Disk} (h : Valid c) (hq : c.queue ≠ -2) : mkDisk c.path c.size (fileioString c) = .ok c := round_trip h hq

/-- C36, from a line: whatever is read from a `disk=` line is, unless it asks for queue -2, printed
in a form that is read back unchanged. -/
theorem C36_line_partial (env : Env) {line : Str} {c : Disk} (h : parseLine env {} line = .ok c) (hf : c.flash = false) (hq : c.queue ≠ -2) :
    mkDisk c.path c.size (fileioString c) = .ok c := by
  refine round_trip ?_ hq
  obtain ⟨tok, rest, f0, f1, f2, _, _, _, _, _, e⟩ := parseLine_eq env {} line
  rw [e] at h
  split at h
  · cases h
  · cases hu : env.units f1 with
    | none => rw [hu] at h; cases h
    | some size =>
      rw [hu] at h
      simp only at h
      rcases parseFileio_cases { path := replacePid (showNat env.pid) (env.expand f0), size := size, ioImpl := f2, deleteOnExit := decide (size = 0), flash := decide (tok ≠ "disk".toList), rawDevice := ({} : Disk).rawDevice, queueLength := ({} : Disk).queueLength } with ⟨h1, _⟩ | ⟨_, h1 | ⟨c', h1, _, _, h2, h3⟩⟩
      · rw [h1] at h; cases h
      · rw [h1] at h; cases h
      · rw [h1] at h
        injection h with h
        subst h
        exact h3 (h2.symm.trans hf) rfl rfl rfl rfl rfl

/-- Options of all kinds, with a negative number. -/
example : Valid { path := "/d".toList, size := 5, ioImpl := "syscall".toList, autogrow := false, direct := .on, queue := -7, deviceId := 3, rawDevice := true, unlinkOnOpen := true } ∧
    fileioString { path := "/d".toList, size := 5, ioImpl := "syscall".toList, autogrow := false, direct := .on, queue := -7, deviceId := 3, rawDevice := true, unlinkOnOpen := true }
      = "syscall autogrow=no direct=on queue=-7 devid=3 raw_device unlink_on_open".toList :=
  ⟨⟨by decide, by decide, rfl, by decide, by decide, by decide, by decide, by decide, by decide, by decide⟩, by decide⟩

example : ∃ c, parseLine plainEnv {} "disk=/d,7,linuxaio  queue_length=12 unlink".toList = .ok c ∧ c.flash = false ∧ c.queue ≠ -2 ∧ c.queueLength = 12 :=
  ⟨_, rfl, by decide, by decide, by decide⟩

/-! ### C37 -/

/-- C37 is false: if the text behind the second comma is empty or blank, `std::out_of_range` is
thrown, which is not a `std::runtime_error`. -/
theorem C37_false : ¬ ∀ (env : Env) (c : Disk) (line : Str), (∃ c', parseLine env c line = .ok c') ∨ parseLine env c line = .runtimeError := by
  intro h
  have e : parseLine plainEnv {} "disk=/d,5".toList = .outOfRange := rfl
  rcases h plainEnv {} "disk=/d,5".toList with ⟨c', h⟩ | h
  · rw [e] at h; cases h
  · rw [e] at h; cases h

/-- C37 as far as it is true: for every string no element behind the end of a vector is accessed;
if there are two commas behind the first `=` and something other than blanks behind them, the line is
accepted or `std::runtime_error` is thrown.  Missing: lines without an I/O implementation. -/
theorem C37_partial (env : Env) (c : Disk) :
    (∀ line, (∃ c', parseLine env c line = .ok c') ∨ parseLine env c line = .runtimeError ∨ parseLine env c line = .outOfRange) ∧
    ∀ tok a b t : Str, '=' ∉ tok → ',' ∉ a → ',' ∉ b → (∃ ch ∈ t, ch ≠ ' ') →
      (∃ c', parseLine env c (tok ++ '=' :: (a ++ ',' :: (b ++ ',' :: t))) = .ok c') ∨ parseLine env c (tok ++ '=' :: (a ++ ',' :: (b ++ ',' :: t))) = .runtimeError := by
  constructor
  · intro line
    obtain ⟨tok, rest, f0, f1, f2, _, _, _, _, _, e⟩ := parseLine_eq env c line
    rw [e]
    split
    · exact .inr (.inl rfl)
    · cases env.units f1 with
      | none => exact .inr (.inl rfl)
      | some size =>
        simp only
        rcases parseFileio_cases { path := replacePid (showNat env.pid) (env.expand f0), size := size, ioImpl := f2, deleteOnExit := decide (size = 0), flash := decide (tok ≠ "disk".toList), rawDevice := c.rawDevice, queueLength := c.queueLength } with ⟨h1, _⟩ | ⟨_, h1 | ⟨c', h1, _⟩⟩
        · exact .inr (.inr h1)
        · exact .inr (.inl h1)
        · exact .inl ⟨_, h1⟩
  · intro tok a b t htok ha hb ht
    obtain ⟨tok', rest, f0, f1, f2, h0, h1, g0, g1, g2, e⟩ := parseLine_eq env c (tok ++ '=' :: (a ++ ',' :: (b ++ ',' :: t)))
    rw [split_eq2 _ htok] at h0 h1
    simp only [index, List.getElem?_cons_zero, List.getElem?_cons_succ, Res.ok.injEq] at h0 h1
    subst h0; subst h1
    rw [split_comma t ha hb] at g2
    simp only [index, List.getElem?_cons_zero, List.getElem?_cons_succ, Res.ok.injEq] at g2
    subst g2
    rw [e]
    split
    · exact .inr rfl
    · cases env.units f1 with
      | none => exact .inr rfl
      | some size =>
        simp only
        rcases parseFileio_cases { path := replacePid (showNat env.pid) (env.expand f0), size := size, ioImpl := t, deleteOnExit := decide (size = 0), flash := decide (tok ≠ "disk".toList), rawDevice := c.rawDevice, queueLength := c.queueLength } with ⟨_, h2⟩ | ⟨_, h1 | ⟨c', h1, _⟩⟩
        · obtain ⟨ch, hm, hne⟩ := ht
          exact absurd (h2 ch hm) hne
        · exact .inr h1
        · exact .inl ⟨_, h1⟩

example : (∃ c, parseLine plainEnv {} "disk=/a,0,mmap unlink devid=7".toList = .ok c ∧ c.deviceId = 7 ∧ c.deleteOnExit = true) ∧
    parseLine plainEnv {} "disk=/a,0,mmap queue_length=7".toList = .runtimeError ∧ parseLine plainEnv {} "disc=/a,0,mmap".toList = .runtimeError ∧
    parseLine plainEnv {} "disk=/a,0x,mmap".toList = .runtimeError ∧ parseLine plainEnv {} "disk=/a,0,mmap queue=7x".toList = .runtimeError :=
  ⟨⟨_, rfl, rfl, rfl⟩, rfl, rfl, rfl, rfl⟩

/-! ### C38 -/

/-- C38 is false: disks added before the initialisation (as the documentation of `add_disk` asks
for) are forgotten in `first_flash`, all of them end up in the flash range. -/
theorem C38_false : ¬ ∀ (env : Env) (g m : Nat) (ops : List Op), (run env (construct g m) ops).isInit = true → Partition (run env (construct g m) ops) := by
  intro h
  obtain ⟨_, _, _, _, h5⟩ := h plainEnv 0 0 [.add { ioImpl := "syscall".toList }, .init none] rfl
  have := (h5 0 { ioImpl := "syscall".toList } rfl).1.mpr rfl
  exact absurd this.2 (by decide)

/-- Three further ways: a disk added after a flash disk was loaded; a flash disk added; an error in
the configuration file, after which the next call initialises with the disks read so far. -/
theorem C38_false_more :
    (run plainEnv (construct 0 0) [.init (some (some ["disk=/a,1,syscall".toList, "flash=/b,1,syscall".toList])), .add { ioImpl := "syscall".toList }]).firstFlash = 2 ∧
    ((run plainEnv (construct 0 0) [.init (some (some ["disk=/a,1,syscall".toList, "flash=/b,1,syscall".toList])), .add { ioImpl := "syscall".toList }]).disks.map (·.flash)) = [false, true, false] ∧
    (run plainEnv (construct 0 0) [.init none, .add { flash := true }]).firstFlash = 2 ∧
    (run plainEnv (construct 0 0) [.init (some (some ["disk=/a,1,syscall".toList, "x".toList])), .init none]).isInit = true ∧
    (run plainEnv (construct 0 0) [.init (some (some ["disk=/a,1,syscall".toList, "x".toList])), .init none]).disks.length = 1 ∧
    (run plainEnv (construct 0 0) [.init (some (some ["disk=/a,1,syscall".toList, "x".toList])), .init none]).firstFlash = 0 :=
  ⟨rfl, rfl, rfl, rfl, rfl, rfl⟩

/-- C38 as far as it is true: if the configuration is initialised first (from a file, or with the
default), and regular disks or further files are added only while there is no flash disk, the ranges
divide the disks.  Missing: the other orders, where it is false. -/
theorem C38_partial {env : Env} {c : Cfg} (h : Orderly env c) (hn : c.disks.length < 2 ^ 32) : Partition c := by
  obtain ⟨r, f, h1, h2, h3, h4⟩ := (orderly_parted h).reg
  have hlen : c.disks.length = r.length + f.length := by rw [h1]; simp
  have hff : c.firstFlash = r.length := by rw [h4]; omega
  have hm : c.disks.length % 2 ^ 32 = c.disks.length := Nat.mod_eq_of_lt hn
  refine ⟨rfl, rfl, ?_, hm, ?_⟩
  · simp only [flashRange]; omega
  · intro i d hi
    have hil : i < c.disks.length := by
      rcases Nat.lt_or_ge i c.disks.length with h | h
      · exact h
      · rw [List.getElem?_eq_none h] at hi; cases hi
    simp only [regularRange, flashRange, hff, hm]
    rw [h1] at hi
    by_cases hir : i < r.length
    · rw [List.getElem?_append_left hir] at hi
      have := h2 d (List.mem_of_getElem? hi)
      rw [this]
      simp; omega
    · rw [List.getElem?_append_right (by omega)] at hi
      have := h3 d (List.mem_of_getElem? hi)
      rw [this]
      simp; omega

/-- Two regular disks and one flash disk, given in mixed order, from a file; and the default with
two more disks. -/
example : (∃ c, Orderly plainEnv c ∧ c.disks.map (·.flash) = [false, false, true] ∧ regularRange c = (0, 2) ∧ flashRange c = (2, 3)) ∧
    ∃ c, Orderly plainEnv c ∧ c.disks.length = 2 :=
  ⟨⟨_, .start (g := 9) (m := 9) (some (some ["disk=/a,1,syscall".toList, "flash=/b,1,syscall".toList, "# x".toList, "disk=/c,1,mmap".toList])) rfl, rfl, rfl, rfl⟩,
   ⟨_, .add { ioImpl := "mmap".toList } (.start (g := 9) (m := 9) none rfl) (by decide) rfl, rfl⟩⟩

/-! ### C39 -/

/-- C39 is false: `create_file` can be used before the configuration is initialised, which then
sets the counter back; the same id is given out twice. -/
theorem C39_false : ¬ ∀ (env : Env) (g m id : Nat) (c1 c2 : Cfg) (found : Option (Option (List Str))), assignId (construct g m) (2 ^ 32 - 1) = (id, c1) →
    init env c1 found = (c2, false) → (assignId c2 (2 ^ 32 - 1)).1 ≠ id := by
  intro h
  exact h plainEnv 0 0 0 { disks := [], firstFlash := 0, isInit := false, maxDev := 1 } _ none rfl rfl rfl

/-- Also, after the explicit id 2^32 - 2 the counter gives out 2^32 - 1, the value that means "no
id", and starts again from 0. -/
theorem C39_false_wrap (c : Cfg) (h : c.maxDev < 2 ^ 32 - 1) : (assignId (assignId c (2 ^ 32 - 2)).2 (2 ^ 32 - 1)).1 = 2 ^ 32 - 1 ∧
    (assignId (assignId (assignId c (2 ^ 32 - 2)).2 (2 ^ 32 - 1)).2 (2 ^ 32 - 1)).1 = 0 := by
  have e : (assignId c (2 ^ 32 - 2)).2 = { c with maxDev := 2 ^ 32 - 1 } := by
    unfold assignId updateMaxDeviceId
    rw [if_neg (by decide)]
    simp only
    rw [if_pos (by omega)]
  rw [e]
  simp [assignId, nextDeviceId]

/-- C39 as far as it is true: once the configuration is initialised, as long as no id from
2^32 - 2 on was used, every automatic id differs from all ids used before, explicit or automatic, and
`max_device_id` exceeds all of them.  Missing: files created before the initialisation, and the
overflow. -/
theorem C39_partial {env : Env} {c : Cfg} {used : List Nat} (h : Ids env c used) (hu : ∀ i ∈ used, i < 2 ^ 32 - 2) :
    (∀ i ∈ used, i < c.maxDev) ∧ (assignId c (2 ^ 32 - 1)).1 ∉ used := by
  have key : (∀ i ∈ used, i < c.maxDev) ∧ c.maxDev ≤ 2 ^ 32 - 2 := by
    induction h with
    | @start c0 c found h0 hi =>
      rw [init_maxDev env found h0 hi]
      simp
    | @create c used wanted _ hw ih =>
      obtain ⟨h1, h2⟩ := ih (fun i hi => hu i (by simp [hi]))
      have h3 := hu (assignId c wanted).1 (by simp)
      unfold assignId at h3 ⊢
      by_cases hd : wanted = 2 ^ 32 - 1
      · simp only [hd, if_true, nextDeviceId] at h3 ⊢
        rw [Nat.mod_eq_of_lt (by omega)]
        refine ⟨?_, by omega⟩
        intro i hi
        rcases List.mem_cons.mp hi with hi | hi
        · omega
        · have := h1 i hi; omega
      · simp only [hd, if_false] at h3 ⊢
        unfold updateMaxDeviceId
        rw [Nat.mod_eq_of_lt (show wanted + 1 < 2 ^ 32 by omega)]
        by_cases hlt : c.maxDev < wanted + 1
        · rw [if_pos hlt]
          refine ⟨?_, by simp only; omega⟩
          intro i hi
          simp only
          rcases List.mem_cons.mp hi with hi | hi
          · omega
          · have := h1 i hi; omega
        · rw [if_neg hlt]
          refine ⟨?_, h2⟩
          intro i hi
          rcases List.mem_cons.mp hi with hi | hi
          · omega
          · exact h1 i hi
  refine ⟨key.1, ?_⟩
  intro hm
  have := key.1 _ hm
  simp [assignId, nextDeviceId] at this

/-- Automatic, explicit 5, explicit 3, automatic: 0, 5, 3, 6. -/
example : ∃ c, Ids plainEnv c [6, 3, 5, 0] ∧ c.maxDev = 7 :=
  ⟨_, .create (2 ^ 32 - 1) (.create 3 (.create 5 (.create (2 ^ 32 - 1) (.start (c0 := construct 1 1) none rfl rfl) (by decide)) (by decide)) (by decide)) (by decide), rfl⟩

/-! ### C65 -/

/-- C65 is false: three characters are replaced instead of two, so the character behind `$$` is
lost: `/tmp/x$$.disk` becomes `/tmp/x42disk`. -/
theorem C65_false : ¬ ∀ (pid a b : Str), (∀ x y, a ++ ['$'] ≠ x ++ '$' :: '$' :: y) → replacePid pid (a ++ '$' :: '$' :: b) = a ++ pid ++ b := by
  intro h
  have := h "42".toList [] ".disk".toList (by
    intro x y e
    have := congrArg List.length e
    simp at this
    omega)
  revert this
  decide

/-- C65 as far as it is true: a path without `$$` is left alone, and a `$$` at the very end is
replaced by the process id.  What happens otherwise: the character behind it is lost. -/
theorem C65_partial (pid : Str) (a : Str) :
    ((∀ x y, a ≠ x ++ '$' :: '$' :: y) → replacePid pid a = a) ∧
    ((∀ x y, a ++ ['$'] ≠ x ++ '$' :: '$' :: y) → replacePid pid (a ++ ['$', '$']) = a ++ pid ∧ ∀ ch b, replacePid pid (a ++ '$' :: '$' :: ch :: b) = a ++ pid ++ b) :=
  ⟨replacePid_none pid a, fun h => ⟨by simpa using replacePid_first pid a [] h, fun ch b => by simpa using replacePid_first pid a (ch :: b) h⟩⟩

example : replacePid "42".toList "/tmp/a$b$$".toList = "/tmp/a$b42".toList ∧ replacePid "42".toList "/tmp/x$$.disk".toList = "/tmp/x42disk".toList := by decide

/-! ### C66 -/

/-- C66 is false: `raw_device` and `queue_length` of the line parsed before stay set. -/
theorem C66_false : ¬ ∀ (env : Env) (c c' : Disk) (line : Str), parseLine env c line = parseLine env c' line := by
  intro h
  have h1 := h plainEnv { rawDevice := true } {} "disk=/d,5,mmap".toList
  have e1 : parseLine plainEnv { rawDevice := true } "disk=/d,5,mmap".toList = .ok { path := "/d".toList, size := 5, ioImpl := "mmap".toList, rawDevice := true } := rfl
  have e2 : parseLine plainEnv {} "disk=/d,5,mmap".toList = .ok { path := "/d".toList, size := 5, ioImpl := "mmap".toList } := rfl
  rw [e1, e2] at h1
  injection h1 with h1
  exact absurd (congrArg Disk.rawDevice h1) (by decide)

/-- C66 as far as it is true: nothing else is left, so for an object without these two settings
(as used by `load_config_file`) the result depends on the line only. -/
theorem C66_partial (env : Env) {c c' : Disk} (h1 : c.rawDevice = c'.rawDevice) (h2 : c.queueLength = c'.queueLength) (line : Str) :
    parseLine env c line = parseLine env c' line := by
  obtain ⟨tok, rest, f0, f1, f2, a0, a1, b0, b1, b2, e⟩ := parseLine_eq env c line
  obtain ⟨tok', rest', g0, g1, g2, a0', a1', b0', b1', b2', e'⟩ := parseLine_eq env c' line
  rw [a0] at a0'; cases a0'
  rw [a1] at a1'; cases a1'
  rw [b0] at b0'; cases b0'
  rw [b1] at b1'; cases b1'
  rw [b2] at b2'; cases b2'
  rw [e, e', h1, h2]

example : ({ path := "/x".toList, autogrow := false, direct := .on, queue := 3, flash := true } : Disk).rawDevice = ({} : Disk).rawDevice ∧
    ({ path := "/x".toList, autogrow := false, direct := .on, queue := 3, flash := true } : Disk).queueLength = ({} : Disk).queueLength := ⟨rfl, rfl⟩

end Foxxll.Config
