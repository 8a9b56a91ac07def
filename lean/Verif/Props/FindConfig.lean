import Verif.Proofs.FindConfig
import Verif.Props.Config
/-
Property C129: the configuration comes from the first existing file of the documented list.
-/
namespace Foxxll.Config

/-- A machine with a file in the current directory and one in the home directory. -/
def exOs : Os :=
  let f : Str → Option Str := fun p =>
    if p = "./.stxxl".toList then some "# disks\ndisk=/a,1,syscall\n\nflash=/f,1,syscall\ndisk=/b,1,syscall".toList
    else if p = "/home/u/.stxxl".toList then some "disk=/c,1,syscall\n".toList
    else none
  { cfgVar := some "/no/file".toList, hostname := some "h".toList, home := some "/home/u".toList, good := fun p => (f p).isSome, content := f }

/-- A machine whose only file has an error in its second line. -/
def badOs : Os :=
  let f : Str → Option Str := fun p =>
    if p = "./.stxxl".toList then some "disk=/a,1,syscall\ndisc=/b,1,syscall\ndisk=/c,1,syscall\n".toList else none
  { cfgVar := none, hostname := none, home := none, good := fun p => (f p).isSome, content := f }

/-- **C129 is false** (full statement: every initialisation uses the first existing file of the list, with all its lines, or throws if a line is faulty; if there is none, the default
disk).  When a program goes on after the exception for a faulty line, the next call finds the disks in front of that line in the list, does not read the file
again, and takes these disks alone. -/
theorem C129_false : ∃ c1 c2, Stable badOs ∧ initOs plainEnv badOs (construct 0 0) = (c1, true) ∧ initOs plainEnv badOs c1 = (c2, false) ∧
    c2.disks.map (·.path) = ["/a".toList] ∧ c2.firstFlash = 0 := by
  refine ⟨_, _, fun p => rfl, rfl, rfl, rfl, rfl⟩

/-- **C129 is false** also if a file vanishes between the test for its existence and its being opened: the default disk is used, although there is another file. -/
theorem C129_race_false : ∃ (os : Os) (c : Cfg), (candidates os).find? os.good = some "./.stxxl".toList ∧ os.content "./.stxxl".toList = none ∧
    os.content "/home/u/.stxxl".toList = some "disk=/c,1,syscall\n".toList ∧ "/home/u/.stxxl".toList ∈ candidates os ∧
    initOs plainEnv os (construct 0 0) = (c, false) ∧ c.disks.map (·.path) = ["/var/tmp/foxxll".toList] :=
  ⟨{ exOs with content := fun p => if p = "/home/u/.stxxl".toList then some "disk=/c,1,syscall\n".toList else none }, _,
    rfl, rfl, rfl, List.Mem.tail _ (List.Mem.tail _ (List.Mem.tail _ (List.Mem.tail _ (List.Mem.head _)))), rfl, rfl⟩

/-- **C129**, first attempt to initialise, files that do not come and go (missing: see `C129_false`, `C129_race_false`): with the first existing
file, the disks are those of its lines, the regular ones first, or the call throws if a line is faulty or there are no disks; without
any file it is the default disk. -/
theorem C129_partial (env : Env) {os : Os} (hst : Stable os) {c : Cfg} (hi : c.isInit = false) (hd : c.disks = []) :
    ((∀ p ∈ candidates os, os.content p = none) → ∃ c', initOs env os c = (c', false) ∧ c'.isInit = true ∧
      c'.disks.map (fun d => (d.path, d.size, d.ioImpl)) = [("/var/tmp/foxxll".toList, 1000 * 1024 * 1024, "syscall".toList)]) ∧
    ∀ pre p post s, candidates os = pre ++ p :: post → (∀ q ∈ pre, os.content q = none) → os.content p = some s →
      (Faulty env (lines s) ∨ entries (lines s) = [] → (initOs env os c).2 = true ∧ (initOs env os c).1.isInit = false) ∧
      ∀ ds, Means env (lines s) ds → ds ≠ [] → ∃ c', initOs env os c = (c', false) ∧ c'.isInit = true ∧
        c'.disks = ds.filter (fun d => !d.flash) ++ ds.filter (·.flash) ∧
        c'.firstFlash = (ds.filter (fun d => !d.flash)).length % 2 ^ 32 := by
  have key : initOs env os c = if (findConfigOs env os { c with firstFlash := 0 }).2 then findConfigOs env os { c with firstFlash := 0 }
      else ({ (findConfigOs env os { c with firstFlash := 0 }).1 with maxDev := 0, isInit := true }, false) := by
    unfold initOs
    simp only [hi, hd, Bool.false_eq_true, if_false, if_true]
  rw [findConfigOs_eq] at key
  refine ⟨?_, ?_⟩
  · intro hn
    have e : (candidates os).find? os.good = none := by
      rw [List.find?_eq_none]
      intro p hp
      rw [hst p, hn p hp]
      simp
    rw [e] at key
    simp only [Bool.false_eq_true, if_false] at key
    refine ⟨_, key, rfl, ?_⟩
    simp [loadDefault, addDisk, hd]
  · intro pre p post s hc hpre hp
    have e : (candidates os).find? os.good = some p := by
      rw [hc, List.find?_append, List.find?_eq_none.2 (fun q hq => by rw [hst q, hpre q hq]; simp)]
      simp [hst p, hp]
    rw [e] at key
    simp only [loadPath, hp, Option.map_some, loadFile, hd] at key
    obtain ⟨h1, h2, h3⟩ := loadLines_spec env (lines s) [] []
    refine ⟨?_, ?_⟩
    · intro h
      rcases h with h | h
      · cases hl : loadLines env (lines s) [] [] with
        | mk a b =>
          rw [hl] at key h1
          have hb : b = none := h1.2 h
          subst hb
          simp only [if_true] at key
          rw [key]
          exact ⟨rfl, hi⟩
      · have := h2 [] (by simp [Means, h])
        rw [this] at key
        simp only [List.filter_nil, List.append_nil, List.isEmpty_nil, if_true] at key
        rw [key]
        exact ⟨rfl, hi⟩
    · intro ds hm hne
      rw [h2 ds hm] at key
      have hne' : ds.filter (fun d => !d.flash) ++ ds.filter (·.flash) ≠ [] := by
        cases ds with
        | nil => exact absurd rfl hne
        | cons d ds =>
          intro h
          rw [List.append_eq_nil_iff] at h
          cases hf : d.flash <;> simp [hf] at h
      have e2 : (ds.filter (fun d => !d.flash) ++ ds.filter (·.flash)).isEmpty = false := by
        simpa using hne'
      simp only [List.nil_append, e2, Bool.false_eq_true, if_false] at key
      exact ⟨_, key, rfl, rfl, rfl⟩

/-- **C129**, the lines of a file: the characters between newlines, with or without a newline at the end of the file. -/
theorem C129_lines (s : Str) : (∀ l ∈ lines s, '\n' ∉ l) ∧
    (lines s).flatMap (· ++ ['\n']) = if s = [] ∨ s.getLast? = some '\n' then s else s ++ ['\n'] := by
  have h := linesFrom_spec s [] (by simp)
  rw [List.nil_append] at h
  exact h

/-- **C129**, every file either has a faulty line or stands for disks. -/
theorem C129_total (env : Env) (ls : List Str) : Faulty env ls ∨ ∃ ds, Means env ls ds := (loadLines_spec env ls [] []).2.2

/-- **C129**, later calls: once initialised, nothing is read again. -/
theorem C129_again (env : Env) (os os' : Os) {c c' : Cfg} (h : initOs env os c = (c', false)) : initOs env os' c' = (c', false) := by
  have : c'.isInit = true := by
    unfold initOs at h
    split at h
    · cases h; assumption
    · simp only at h
      generalize (if c.disks = [] then findConfigOs env os { c with firstFlash := 0 } else ({ c with firstFlash := 0 }, false)) = r at h
      split at h
      · rename_i h'; rw [h] at h'; cases h'
      · cases h; rfl
  unfold initOs
  rw [if_pos this]

/-- The search finds the second of five candidates, in spite of `STXXLCFG`; four of its lines are entries or comments, its disks are three. -/
example : Stable exOs ∧ candidates exOs = ["/no/file".toList, "./.stxxl.h".toList] ++ "./.stxxl".toList :: ["/home/u/.stxxl.h".toList, "/home/u/.stxxl".toList] ∧
    ((initOs plainEnv exOs (construct 7 9)).1.disks.map (·.path)) = ["/a".toList, "/b".toList, "/f".toList] ∧
    (initOs plainEnv exOs (construct 7 9)).1.firstFlash = 2 := ⟨fun _ => rfl, rfl, rfl, rfl⟩

end Foxxll.Config
