/-
Properties C110 to C113: the file implementation for Windows.
-/
import Verif.Proofs.WinFile
import Verif.Props.Files

namespace Foxxll.Win
open Foxxll.Open (Mode)
open Foxxll.Files (File emptyFile pread store)

/-! ### C110: opening a file does what the mode says

In full (file.hpp:64-87): the constructor returns iff the file exists or CREAT is given and no call fails; afterwards the file is open for
what the mode allows, empty if TRUNC is given and with its old contents otherwise, locked unless NO_LOCK is given, without buffering if
REQUIRE_DIRECT is given, and `need_alignment` tells whether it is without buffering.  If the constructor throws, no handle stays open. -/

/-- **C110 is false**: a missing file is created without CREAT - with RDONLY even as a read-only file. -/
theorem C110_false_missing : (construct {} {} { rdonly := true } none false).1 = .ok () ∧
    (construct {} {} { rdonly := true } none false).2.file.map (·.size) = some 0 ∧
    (construct {} {} { rdonly := true } none false).2.readonly = true := ⟨rfl, rfl, rfl⟩

/-- **C110 is false**: with CREAT and TRUNC a missing file is not created, the constructor throws; this holds for every mode with TRUNC. -/
theorem C110_false_creat (os : Os) (b : Build) (m : Mode) (ro : Bool) (ht : m.trunc = true)
    (hd : ¬ (m.direct = true ∧ b.directOff = true ∧ m.requireDirect = true)) : (construct os b m none ro).1 = .throws := by
  have key : ∀ (u : Bool) (s : St), s.file = none → createFile os (m.rdonly || m.rdwr) (m.wronly || m.rdwr) m.trunc u m.rdonly s = (none, s.tick) := by
    intro u s hs
    unfold createFile
    rw [hs, ht]
    split <;> rfl
  unfold construct M.bind
  have e : (openImpl os b m { file := none, readonly := ro, mode := m }).1 = .throws := by
    unfold openImpl
    rw [if_neg]
    · dsimp only
      rw [key _ _ rfl]
      dsimp only
      split
      · rw [key _ _ rfl]
      · rfl
    · simp only [Bool.and_eq_true]; exact fun ⟨⟨a, b⟩, c⟩ => hd ⟨a, b, c⟩
  cases hq : openImpl os b m { file := none, readonly := ro, mode := m } with
  | mk o s =>
    rw [hq] at e
    simp only at e
    rw [e]

/-- **C110 is false**: REQUIRE_DIRECT alone ("implies DIRECT") opens the file with buffering. -/
theorem C110_false_require : (construct {} {} { rdwr := true, requireDirect := true } (some emptyFile) false).1 = .ok () ∧
    (construct {} {} { rdwr := true, requireDirect := true } (some emptyFile) false).2.fd.map (·.unbuf) = some false := ⟨rfl, rfl⟩

/-- **C110 is false**: in a build without direct I/O, DIRECT with REQUIRE_DIRECT and NO_LOCK give a file object without a file. -/
theorem C110_false_invalid : (construct {} { directOff := true } { rdwr := true, direct := true, requireDirect := true, noLock := true } (some emptyFile) false).1 = .ok () ∧
    (construct {} { directOff := true } { rdwr := true, direct := true, requireDirect := true, noLock := true } (some emptyFile) false).2.fd = none := ⟨rfl, rfl⟩

/-- **C110 is false**: `need_alignment` is set though the file was opened with buffering (the file system refuses direct I/O). -/
theorem C110_false_align : ∃ os : Os, (construct os {} { rdwr := true, direct := true } (some emptyFile) false).1 = .ok () ∧
    (construct os {} { rdwr := true, direct := true } (some emptyFile) false).2.needAlign = true ∧
    (construct os {} { rdwr := true, direct := true } (some emptyFile) false).2.fd.map (·.unbuf) = some false :=
  ⟨{ direct := fun _ => false }, rfl, rfl, rfl⟩

/-- **C110 is false**: if the file cannot be locked the constructor throws with the handle open and, with TRUNC, the contents gone. -/
theorem C110_false_leak : ∃ (os : Os) (f : File), f.size = 1 ∧ (construct os {} { rdwr := true, trunc := true } (some f) false).1 = .throws ∧
    (construct os {} { rdwr := true, trunc := true } (some f) false).2.fd ≠ none ∧
    (construct os {} { rdwr := true, trunc := true } (some f) false).2.file.map (·.size) = some 0 :=
  ⟨{ fails := fun n => n = 1 }, { size := 1, byte := fun _ => 0 }, rfl, rfl, by simp [construct, M.bind, openImpl, createFile, lock, St.tick], rfl⟩

/-- **C110**, partial: except for REQUIRE_DIRECT in builds without direct I/O, if the constructor returns then the file is open as the mode
says; missing are the conditions on CREAT and REQUIRE_DIRECT without DIRECT, and `need_alignment` is set also for buffered files. -/
theorem C110_partial {os : Os} {b : Build} {m : Mode} {file : Option File} {ro : Bool} {s : St} (h : construct os b m file ro = (.ok (), s))
    (hv : ¬ (m.direct = true ∧ b.directOff = true ∧ m.requireDirect = true)) :
    ∃ hd f, s.fd = some hd ∧ s.file = some f ∧ hd.read = (m.rdonly || m.rdwr) ∧ hd.write = (m.wronly || m.rdwr) ∧
      hd.locked = (!m.noLock) ∧ s.locked = (!m.noLock) ∧
      (m.trunc = true → file ≠ none ∧ f = emptyFile) ∧ (m.trunc = false → f = file.getD emptyFile) ∧
      (m.direct = true → m.requireDirect = true → hd.unbuf = true) ∧ (hd.unbuf = true → m.direct = true ∧ b.directOff = false) ∧
      (m.direct = true → b.directOff = false → hd.unbuf = false → os.fails 0 = true ∨ os.direct 0 = false ∨ file = none ∨ ro = true) ∧
      s.needAlign = m.direct ∧ s.mode = m := by
  unfold construct at h
  obtain ⟨o, s1, h1, h2⟩ := bind_ok h
  obtain ⟨_, s2, h3, h4⟩ := bind_ok h2
  rcases openImpl_ok h1 with ⟨_, _, h5, h6, h7⟩ | ⟨_, u, h5, hs, hu, hr, hfb, ht, hfl, _⟩
  · exact absurd ⟨h5, h6, h7⟩ hv
  subst h5
  obtain ⟨s3, g1, g2, g3, g4, g5, g6, g7, g8⟩ := setSector_ok os s2
  rw [g1] at h4
  injection h4 with _ h4
  subst h4
  have hlk : s1.locked = false := hs.locked
  have hmd : s1.mode = m := hs.mode
  cases hn : m.noLock
  · rw [hn] at h3
    simp only [Bool.false_eq_true, if_false] at h3
    rw [lock_some (os := os) (s := { s1 with fd := _, needAlign := m.direct }) (h := _) rfl hlk] at h3
    split at h3
    · cases h3
    · injection h3 with _ h3
      subst h3
      refine ⟨_, if m.trunc then emptyFile else file.getD emptyFile, g3, ?_, rfl, rfl, rfl, g5, ?_, ?_, hr, hu, hfb, g6, g4.trans hmd⟩
      · rw [g2]; exact hfl
      · intro h; exact ⟨ht h, by simp [h]⟩
      · intro h; simp [h]
  · rw [hn] at h3
    simp only [if_true] at h3
    injection h3 with _ h3
    subst h3
    refine ⟨_, if m.trunc then emptyFile else file.getD emptyFile, g3, ?_, rfl, rfl, rfl, g5.trans hlk, ?_, ?_, hr, hu, hfb, g6, g4.trans hmd⟩
    · rw [g2]; exact hfl
    · intro h; exact ⟨ht h, by simp [h]⟩
    · intro h; simp [h]

/-- **C110**: the constructor returns if no call fails, the file may be opened as demanded and TRUNC is given only for existing files opened
for writing. -/
theorem C110_returns_partial {os : Os} {b : Build} {m : Mode} {file : Option File} {ro : Bool} (hf : ∀ n, os.fails n = false)
    (hd : m.direct = true → (b.directOff = false ∧ os.direct 0 = true) ∨ m.requireDirect = false)
    (ht : m.trunc = true → file ≠ none ∧ (m.wronly || m.rdwr) = true) (hr : (m.wronly || m.rdwr) = true → ro = false) :
    ∃ s, construct os b m file ro = (.ok (), s) := by
  have hv : ¬ (m.direct = true ∧ b.directOff = true ∧ m.requireDirect = true) := by
    rintro ⟨h1, h2, h3⟩
    rcases hd h1 with ⟨h, _⟩ | h
    · rw [h] at h2; cases h2
    · rw [h] at h3; cases h3
  have ho : ∃ o s, openImpl os b m { file := file, readonly := ro, mode := m } = (.ok o, s) := by
    cases hq : openImpl os b m { file := file, readonly := ro, mode := m } with
    | mk o s =>
      have hN := openImpl_normal (os := os) (b := b) (m := m) (s := { file := file, readonly := ro, mode := m })
      rw [hq] at hN
      cases o with
      | ok a => exact ⟨a, s, rfl⟩
      | abort => exact absurd rfl hN.2
      | ub => exact absurd rfl hN.1
      | throws =>
        exfalso
        unfold openImpl at hq
        split at hq
        · cases hq
        · dsimp only at hq
          have bad : ∀ {u : Bool} {t t' : St}, t.file = file → t.readonly = ro →
              createFile os (m.rdonly || m.rdwr) (m.wronly || m.rdwr) m.trunc u m.rdonly t = (none, t') → u = true ∧ os.direct t.calls = false := by
            intro u t t' h1 h2 h3
            rcases (createFile_none h3).2 with e | e | ⟨e1, e2⟩ | ⟨e1, e2⟩ | ⟨e1, e2⟩
            · rw [hf] at e; cases e
            · exact e
            · exact absurd (h1 ▸ e1) (ht e2).1
            · rw [h2, hr e1] at e2; cases e2
            · rw [(ht e1).2] at e2; cases e2
          split at hq
          · cases hq
          · rename_i s1 e
            obtain ⟨b1, b2⟩ := bad rfl rfl e
            have e1 := (createFile_none e).1
            simp only [Bool.and_eq_true, Bool.not_eq_true'] at b1
            split at hq
            · split at hq
              · cases hq
              · rename_i s2 e'
                subst e1
                have := bad (t := St.tick _) rfl rfl e'
                cases this.1
            · rename_i hc
              apply hc
              simp only [Bool.and_eq_true, Bool.not_eq_true']
              refine ⟨⟨b1.2, b1.1⟩, ?_⟩
              rcases hd b1.1 with ⟨_, h⟩ | h
              · simp only at b2; rw [h] at b2; cases b2
              · exact h
  obtain ⟨o, s, ho⟩ := ho
  rcases openImpl_ok ho with ⟨_, _, h5, h6, h7⟩ | ⟨_, u, h5, hs, _⟩
  · exact absurd ⟨h5, h6, h7⟩ hv
  subst h5
  unfold construct M.bind
  rw [ho]
  simp only
  cases hn : m.noLock
  · simp only [Bool.false_eq_true, if_false]
    rw [lock_some (os := os) (s := { s with fd := _, needAlign := m.direct }) rfl hs.locked, hf]
    simp only [Bool.false_eq_true, if_false]
    obtain ⟨s3, g1, _⟩ := setSector_ok os (St.mk s.file s.readonly (s.calls + 1) s.mode (some ⟨m.rdonly || m.rdwr, m.wronly || m.rdwr, u, true⟩) s.bps true m.direct)
    exact ⟨s3, g1⟩
  · simp only [if_true]
    exact ⟨_, (setSector_ok os _).choose_spec.1⟩

/-- **C110**: if the constructor throws, the file is unchanged and closed, unless `LockFile` failed. -/
theorem C110_throws_partial {os : Os} {b : Build} {m : Mode} {file : Option File} {ro : Bool} {s : St} (h : construct os b m file ro = (.throws, s)) :
    (s.fd = none ∧ s.file = file) ∨ (m.noLock = false ∧ ∃ n, s.calls = n + 1 ∧ os.fails n = true) := by
  unfold construct at h
  rcases bind_throws h with h1 | ⟨o, s1, h1, h2⟩
  · obtain ⟨e1, e2, _⟩ := openImpl_throws h1
    exact .inl ⟨e1.fd, e2⟩
  · rcases bind_throws h2 with h3 | ⟨_, s2, _, h4⟩
    · split at h3
      · cases h3
      · rename_i hn
        rcases openImpl_ok h1 with ⟨h5, h6, _⟩ | ⟨_, u, h5, hs, _⟩
        · subst h5; subst h6
          unfold lock at h3
          simp only [Bool.false_eq_true, if_false] at h3
          injection h3 with _ h3
          subst h3
          exact .inl ⟨rfl, rfl⟩
        · subst h5
          rw [lock_some (os := os) (s := { s1 with fd := _, needAlign := m.direct }) rfl hs.locked] at h3
          split at h3
          · rename_i hf
            injection h3 with _ h3
            subst h3
            exact .inr ⟨by simpa using hn, s1.calls, rfl, hf⟩
          · cases h3
    · obtain ⟨s3, g1, _⟩ := setSector_ok os s2
      rw [g1] at h4; cases h4

/-- A file of two bytes opened for direct reading and writing. -/
example : ∃ s, construct {} {} { rdwr := true, creat := true, direct := true } (some { size := 2, byte := fun _ => 0 }) false = (.ok (), s) ∧
    s.fd = some { read := true, write := true, unbuf := true, locked := true } ∧ s.needAlign = true := ⟨_, rfl, rfl, rfl⟩

/-! ### C111: `set_size` sets the size

In full: after `set_size` of a file open for writing the file has the given size and its old contents up to it, and the object is as
before: open, locked if it was.  If it throws, the object is as before, too. -/

/-- **C111 is false** for direct files: `set_size` uses the size of sectors, which the constructor never sets unless a call fails - for
every such file and every new size. -/
theorem C111_false {os : Os} {b : Build} {m : Mode} {file : Option File} {ro : Bool} {s : St} (h : construct os b m file ro = (.ok (), s))
    (hf : ∀ n, os.fails n = false) (hd : m.direct = true) (hr : m.rdonly = false) (hv : b.directOff = false) (n : Nat) :
    (setSize os b n s).1 = .ub := by
  obtain ⟨hd', f, h1, h2, _, _, _, _, _, _, _, _, _, _, h3⟩ := C110_partial h (by rw [hv]; simp)
  have hb : s.bps = none := by
    unfold construct at h
    obtain ⟨o, s1, g1, g2⟩ := bind_ok h
    obtain ⟨_, s2, g3, g4⟩ := bind_ok g2
    rcases openImpl_ok g1 with ⟨_, _, h5, h6, h7⟩ | ⟨_, u, h5, hs, _⟩
    · rw [hv] at h6; cases h6
    subst h5
    obtain ⟨s3, k1, _, _, _, _, _, _, k8⟩ := setSector_ok os s2
    rw [k1] at g4
    injection g4 with _ g4
    subst g4
    have e2 : s2.bps = none := by
      split at g3
      · injection g3 with _ g3; subst g3; exact hs.bps
      · rw [lock_some (os := os) (s := { s1 with fd := _, needAlign := m.direct }) rfl hs.locked] at g3
        split at g3
        · cases g3
        · injection g3 with _ g3; subst g3; exact hs.bps
    rcases k8 with k8 | ⟨_, k8⟩
    · rw [k8, e2]
    · rw [hf] at k8; cases k8
  unfold setSize M.bind size
  rw [h1, h2, hf]
  simp only [Bool.false_eq_true, if_false, St.tick]
  rw [h3, hr, hd, hb]
  simp

example : ∃ s, construct {} {} { rdwr := true, direct := true } (some emptyFile) false = (.ok (), s) := ⟨_, rfl⟩

/-- **C111 is false**: if the size of sectors is known (`GetFullPathNameA` failed), a size that is not a multiple of it makes the object
lose its lock, which it believes to have. -/
theorem C111_false_lock : ∃ (os : Os) (s : St), construct os {} { rdwr := true, direct := true } (some emptyFile) false = (.ok (), s) ∧
    s.fd.map (·.locked) = some true ∧ (setSize os {} 7 s).1 = .ok () ∧ (setSize os {} 7 s).2.file.map (·.size) = some 7 ∧
    (setSize os {} 7 s).2.locked = true ∧ (setSize os {} 7 s).2.fd.map (·.locked) = some false :=
  ⟨{ fails := fun n => n = 2 }, _, rfl, rfl, rfl, rfl, rfl, rfl⟩

/-- **C111 is false**: if the file cannot be opened again the object is left without file. -/
theorem C111_false_closed : ∃ (os : Os) (s : St), construct os {} { rdwr := true, direct := true } (some emptyFile) false = (.ok (), s) ∧
    s.fd.map (·.write) = some true ∧ (setSize os {} 7 s).1 = .throws ∧ (setSize os {} 7 s).2.fd = none :=
  ⟨{ fails := fun n => n = 2 || n = 5 }, _, rfl, rfl, rfl, rfl⟩

/-- **C111**, partial: whenever `set_size` returns (for a file not opened read-only), the size is as given and the old contents are kept;
the handle is the same unless the mode is DIRECT and the size not a multiple of the sector size. -/
theorem C111_partial {os : Os} {b : Build} {n : Nat} {s s' : St} (h : setSize os b n s = (.ok (), s')) (hr : s.mode.rdonly = false) :
    ∃ f f', s.file = some f ∧ s'.file = some f' ∧ f'.size = n ∧ n < 2 ^ 63 ∧ (∀ i, i < f.size → i < n → f'.byte i = f.byte i) ∧
      s'.mode = s.mode ∧ s'.locked = s.locked ∧
      (s.mode.direct = false ∨ (∃ k, s.bps = some k ∧ n % k = 0) → s'.fd = s.fd) := by
  unfold setSize at h
  obtain ⟨_, s1, h1, h2⟩ := bind_ok h
  obtain ⟨e1, ⟨hd, e2⟩, f, e3, e4⟩ := size_ok h1
  subst e1
  have key : ∀ {s1 s2 : St}, M.bind (seek os n) (fun _ => setEnd os n) s1 = (.ok (), s2) → s1.file = some f →
      n < 2 ^ 63 ∧ s2.fd = s1.fd ∧ s2.file = some (endAt os f n) ∧ s2.mode = s1.mode ∧ s2.locked = s1.locked := by
    intro s1 s2 g hf
    obtain ⟨_, s3, g1, g2⟩ := bind_ok g
    obtain ⟨k1, k2⟩ := seek_ok g1
    obtain ⟨f', k3, k4⟩ := setEnd_ok g2
    subst k4; subst k1
    have : f' = f := by
      have : some f' = some f := k3.symm.trans hf
      injection this
    subst this
    exact ⟨k2, rfl, rfl, rfl, rfl⟩
  have hend : (∀ i, i < f.size → i < n → (endAt os f n).byte i = f.byte i) := by
    intro i h1 h2; simp [endAt, h1, h2]
  have hm : s.tick.mode = s.mode := rfl
  rw [hm, hr] at h2
  simp only [Bool.false_eq_true, if_false] at h2
  split at h2
  · cases h2
  · cases h2
  · rename_i k hdir hb
    split at h2
    · rename_i hk
      obtain ⟨_, s2, g1, g2⟩ := bind_ok h2
      obtain ⟨c1, c2, c3, c4, _⟩ := reopen_ok g1 rfl (by show s.file ≠ none; rw [e3]; simp)
      obtain ⟨_, s3, g3, g4⟩ := bind_ok g2
      obtain ⟨_, s4, g5, g6⟩ := bind_ok g4
      obtain ⟨d1, d2, d3, d4, d5⟩ := key (s1 := s2) (s2 := s4) (by unfold M.bind; rw [g3]; exact g5) (c1.trans e3)
      obtain ⟨f1, f2, f3, f4, _⟩ := reopen_ok g6 rfl (by rw [d3]; simp)
      refine ⟨f, endAt os f n, e3, f1.trans d3, rfl, d1, hend, f2.trans (d4.trans c2), f3.trans (d5.trans c3), ?_⟩
      rintro (h | ⟨k', h, h'⟩)
      · rw [hdir] at h; cases h
      · have : s.bps = some (k + 1) := hb
        rw [this] at h
        injection h with h
        subst h
        exact absurd h' hk
    · obtain ⟨d1, d2, d3, d4, d5⟩ := key h2 e3
      exact ⟨f, _, e3, d3, rfl, d1, hend, d4, d5, fun _ => d2⟩
  · obtain ⟨d1, d2, d3, d4, d5⟩ := key h2 e3
    exact ⟨f, _, e3, d3, rfl, d1, hend, d4, d5, fun _ => d2⟩

/-- **C111**, partial: for files without DIRECT nothing changes if `set_size` throws, and it is not undefined. -/
theorem C111_throws_partial {os : Os} {b : Build} {n : Nat} {s : St} (hd : s.mode.direct = false) :
    ((setSize os b n s).1 = .throws ∧ (setSize os b n s).2.file = s.file ∧ (setSize os b n s).2.fd = s.fd ∧ (setSize os b n s).2.locked = s.locked) ∨
    (setSize os b n s).1 = .ok () := by
  unfold setSize
  cases h1 : size os s with
  | mk o s1 =>
    cases o with
    | throws =>
      simp only [M.bind, h1]
      have := size_throws h1
      subst this
      exact .inl ⟨by simp, rfl, rfl, rfl⟩
    | ub => exfalso; unfold size at h1; split at h1 <;> (try split at h1) <;> cases h1
    | abort => exfalso; unfold size at h1; split at h1 <;> (try split at h1) <;> cases h1
    | ok a =>
      obtain ⟨e1, _⟩ := size_ok h1
      subst e1
      simp only [M.bind, h1]
      have hm : s.tick.mode = s.mode := rfl
      rw [hm, hd]
      split
      · exact .inr rfl
      · simp only
        cases h2 : seek os n s.tick with
        | mk o s2 =>
          cases o with
          | throws => have := seek_throws h2; subst this; exact .inl ⟨rfl, rfl, rfl, rfl⟩
          | ub => exfalso; unfold seek at h2; split at h2 <;> (try split at h2) <;> cases h2
          | abort => exfalso; unfold seek at h2; split at h2 <;> (try split at h2) <;> cases h2
          | ok a =>
            have := (seek_ok h2).1
            subst this
            simp only
            cases h3 : setEnd os n s.tick.tick with
            | mk o s3 =>
              cases o with
              | throws => have := setEnd_throws h3; subst this; exact .inl ⟨rfl, rfl, rfl, rfl⟩
              | ub => exfalso; unfold setEnd at h3; split at h3 <;> (try split at h3) <;> cases h3
              | abort => exfalso; unfold setEnd at h3; split at h3 <;> (try split at h3) <;> cases h3
              | ok a => exact .inr rfl

/-- A buffered file cut from three to two bytes. -/
example : ∃ s s', construct {} {} { rdwr := true } (some { size := 3, byte := fun i => if i < 3 then 9 else 0 }) false = (.ok (), s) ∧
    setSize {} {} 2 s = (.ok (), s') ∧ s'.file.map (fun f => (f.size, f.byte 1, f.byte 2)) = some (2, 9, 0) ∧ s'.fd = s.fd :=
  ⟨_, _, rfl, rfl, rfl, rfl⟩

/-! ### C112: transfers on Windows

In full: as with `syscall_file` (C33), a request that does not throw transfers exactly its bytes, a read beyond the end giving zeros; a
request that throws changes nothing outside its range; requests throw only if a call fails or the read begins behind the end. -/

/-- **C112 is false**: a read over the end of the file throws; `syscall_file` returns the bytes and fills up with zeros. -/
theorem C112_false : ∃ (f : File) (s : St), construct {} {} { rdwr := true } (some f) false = (.ok (), s) ∧
    (serveRead {} {} [7, 7] 0 2 s).1 = .throws ∧
    (match Files.serveRead (fun _ => { rc := some 2 }) f [7, 7] 0 2 with | .done _ buf => buf | _ => []) = [5, 0] :=
  ⟨{ size := 1, byte := fun i => if i = 0 then 5 else 0 }, _, rfl, rfl, rfl⟩

/-- **C112 is false**: from 4 GiB on requests stop the program, or throw if built with NDEBUG. -/
theorem C112_false_large (os : Os) (b : Build) (buf : List UInt8) (off : Nat) {bytes : Nat} (h : 2 ^ 32 ≤ bytes) (s : St) :
    ((serveRead os b buf off bytes s).1 = .throws ∨ (b.ndebug = false ∧ (serveRead os b buf off bytes s).1 = .abort)) ∧
    ((serveWrite os b buf off bytes s).1 = .throws ∨ (b.ndebug = false ∧ (serveWrite os b buf off bytes s).1 = .abort)) := by
  have hm : bytes % 2 ^ 32 < 2 ^ 32 := Nat.mod_lt _ (by decide)
  unfold serveRead serveWrite M.bind
  cases h1 : seek os off s with
  | mk o s1 =>
    cases o with
    | throws => simp
    | ub => exfalso; unfold seek at h1; split at h1 <;> (try split at h1) <;> cases h1
    | abort => exfalso; unfold seek at h1; split at h1 <;> (try split at h1) <;> cases h1
    | ok a =>
      simp only
      cases hn : b.ndebug
      · simp [h]
      · simp only [Bool.not_true, Bool.false_and, Bool.false_eq_true, if_false]
        split
        · rename_i hd f _ _
          refine ⟨.inl ?_, .inl ?_⟩
          · split
            · rfl
            · rw [if_pos]
              have : min (os.most s1.calls) (min (bytes % 2 ^ 32) (f.size - off)) < 2 ^ 32 := by omega
              omega
          · split
            · rfl
            · rw [if_pos]
              have : min (os.most s1.calls) (bytes % 2 ^ 32) < 2 ^ 32 := by omega
              omega
        · exact ⟨.inl rfl, .inl rfl⟩

/-- **C112**, reads: if the read returns, all bytes are in the file and the buffer has them; nothing else changes. -/
theorem C112_read_partial {os : Os} {b : Build} {buf buf' : List UInt8} {off bytes : Nat} {s s' : St} (hb : bytes ≤ buf.length)
    (h : serveRead os b buf off bytes s = (.ok buf', s')) :
    ∃ f, s.file = some f ∧ s'.file = some f ∧ s'.fd = s.fd ∧ (0 < bytes → off + bytes ≤ f.size) ∧ buf'.length = buf.length ∧
      ∀ i (h : i < buf.length), buf'[i]? = some (if i < bytes then f.byte (off + i) else buf[i]) := by
  unfold serveRead at h
  obtain ⟨_, s1, h1, h2⟩ := bind_ok h
  have e := (seek_ok h1).1
  subst e
  split at h2
  · cases h2
  · dsimp only at h2
    split at h2
    · rename_i hd f hfd hfl
      split at h2
      · cases h2
      · split at h2
        · cases h2
        · rename_i hrc
          have hrc : min (os.most s.tick.calls) (min (bytes % 2 ^ 32) (f.size - off)) = bytes := Decidable.not_not.1 hrc
          injection h2 with h3 h4
          injection h3 with h3
          subst h3; subst h4
          rw [hrc]
          refine ⟨f, hfl, hfl, rfl, by omega, ?_, ?_⟩
          · simp [store, pread]; omega
          · intro i hi
            simp only [store, pread, List.take_zero, List.nil_append, List.length_map, List.length_range, Nat.zero_add]
            by_cases hib : i < bytes
            · rw [List.getElem?_append_left (by simpa using hib)]
              simp [hib]
            · rw [List.getElem?_append_right (by simpa using Nat.le_of_not_lt hib)]
              simp only [List.length_map, List.length_range, List.getElem?_drop, if_neg hib]
              rw [show bytes + (i - bytes) = i by omega, List.getElem?_eq_getElem hi]
    · cases h2

/-- **C112**, writes: if the write returns, the file has the bytes in the range and is as before outside; if it throws, the file is as before
outside the range and the object is unchanged.  Bytes between the old end and the range are not specified. -/
theorem C112_write_partial {os : Os} {b : Build} {buf : List UInt8} {off bytes : Nat} {s s' : St} {o : Out Unit} (hb : bytes ≤ buf.length)
    (h : serveWrite os b buf off bytes s = (o, s')) :
    s'.fd = s.fd ∧ s'.locked = s.locked ∧ o ≠ .ub ∧
    (∀ f', s'.file = some f' → ∃ f, s.file = some f ∧ f.size ≤ f'.size ∧ f'.size ≤ max f.size (off + bytes) ∧
      (∀ i, i < f.size → i < off ∨ off + bytes ≤ i → f'.byte i = f.byte i)) ∧
    (o = .ok () → ∃ f', s'.file = some f' ∧ (0 < bytes → off + bytes ≤ f'.size) ∧ ∀ i (h : i < bytes), f'.byte (off + i) = buf[i]) := by
  have same : ∀ {t : St}, t.file = s.file → (∀ f', t.file = some f' → ∃ f, s.file = some f ∧ f.size ≤ f'.size ∧ f'.size ≤ max f.size (off + bytes) ∧
      (∀ i, i < f.size → i < off ∨ off + bytes ≤ i → f'.byte i = f.byte i)) := by
    intro t ht f' hf'
    exact ⟨f', ht ▸ hf', by omega, by omega, fun _ _ _ => rfl⟩
  unfold serveWrite M.bind at h
  cases h1 : seek os off s with
  | mk o1 s1 =>
    rw [h1] at h
    cases o1 with
    | throws =>
      have e := seek_throws h1
      subst e
      injection h with h2 h3
      subst h2; subst h3
      exact ⟨rfl, rfl, by simp, same rfl, by simp⟩
    | ub => exfalso; unfold seek at h1; split at h1 <;> (try split at h1) <;> cases h1
    | abort => exfalso; unfold seek at h1; split at h1 <;> (try split at h1) <;> cases h1
    | ok a =>
      have e := (seek_ok h1).1
      subst e
      simp only at h
      split at h
      · injection h with h2 h3
        subst h2; subst h3
        exact ⟨rfl, rfl, by simp, same rfl, by simp⟩
      · split at h
        · rename_i hd f hfd hfl
          split at h
          · injection h with h2 h3
            subst h2; subst h3
            exact ⟨rfl, rfl, by simp, same rfl, by simp⟩
          · injection h with h2 h3
            subst h3
            generalize hrc : min (os.most s.tick.calls) (bytes % 2 ^ 32) = rc at h2
            have hle : rc ≤ bytes := by have := Nat.mod_le bytes (2 ^ 32); omega
            have hlen : (buf.take rc).length = rc := by rw [List.length_take]; omega
            have hfl' : s.file = some f := hfl
            refine ⟨rfl, rfl, ?_, ?_, ?_⟩
            · rw [← h2]; split <;> simp
            · intro f' hf'
              injection hf' with hf'
              subst hf'
              refine ⟨f, hfl', ?_⟩
              unfold writeAt
              split
              · exact ⟨by omega, by omega, fun _ _ _ => rfl⟩
              · refine ⟨?_, ?_, ?_⟩
                · show f.size ≤ max f.size (off + (buf.take rc).length); omega
                · show max f.size (off + (buf.take rc).length) ≤ _; omega
                · intro i h4 h5
                  show (if off ≤ i ∧ i < off + (buf.take rc).length then _ else _) = _
                  rw [if_neg (by omega), if_pos h4]
            · intro ho
              rw [ho] at h2
              split at h2
              · cases h2
              · rename_i hne
                have hne : rc = bytes := Decidable.not_not.1 hne
                subst hne
                refine ⟨_, rfl, ?_, ?_⟩
                · intro h0
                  unfold writeAt
                  rw [if_neg (by intro hnil; rw [hnil] at hlen; simp at hlen; omega)]
                  show _ ≤ max f.size (off + (buf.take rc).length)
                  omega
                · intro i hi
                  unfold writeAt
                  rw [if_neg (by intro hnil; rw [hnil] at hlen; simp at hlen; omega)]
                  show (if off ≤ off + i ∧ off + i < off + (buf.take rc).length then (buf.take rc).getD (off + i - off) 0 else _) = _
                  rw [if_pos (by omega), Nat.add_sub_cancel_left]
                  simp [List.getD, hi, List.getElem?_eq_getElem (show i < buf.length by omega)]
        · injection h with h2 h3
          subst h2; subst h3
          exact ⟨rfl, rfl, by simp, same rfl, by simp⟩

/-- **C112**: reading back what was written. -/
theorem C112_roundtrip {os : Os} {b : Build} {buf buf0 buf1 : List UInt8} {off bytes : Nat} {s s' s'' : St} (hb : bytes ≤ buf.length) (hb0 : buf0.length = bytes)
    (h : serveWrite os b buf off bytes s = (.ok (), s')) (h' : serveRead os b buf0 off bytes s' = (.ok buf1, s'')) : buf1 = buf.take bytes := by
  obtain ⟨_, _, _, _, h1⟩ := C112_write_partial hb h
  obtain ⟨f', h2, _, h3⟩ := h1 rfl
  obtain ⟨f, g1, _, _, _, g2, g3⟩ := C112_read_partial (by omega) h'
  have e : f = f' := by rw [h2] at g1; injection g1 with g1; exact g1.symm
  subst e
  apply List.ext_getElem?
  intro i
  by_cases hi : i < bytes
  · rw [g3 i (by omega), List.getElem?_take, if_pos hi, if_pos hi, h3 i hi, List.getElem?_eq_getElem (show i < buf.length by omega)]
  · rw [List.getElem?_eq_none (by omega), List.getElem?_eq_none (by rw [List.length_take]; omega)]

/-- **C112**: requests of an open file throw only if a call fails or transfers less, the range is not suitable for direct I/O, or a read reaches
over the end. -/
theorem C112_returns_partial {os : Os} {b : Build} {buf : List UInt8} {off bytes : Nat} {s : St} {hd : Handle} {f : File} (hf : ∀ n, os.fails n = false)
    (hm : ∀ n, bytes ≤ os.most n) (h1 : s.fd = some hd) (h2 : s.file = some f) (ho : off < 2 ^ 63) (hs : bytes < 2 ^ 32)
    (ha : hd.unbuf = true → off % os.sector = 0 ∧ bytes % os.sector = 0) :
    (hd.read = true → off + bytes ≤ f.size → ∃ buf' s', serveRead os b buf off bytes s = (.ok buf', s')) ∧
    (hd.write = true → ∃ s', serveWrite os b buf off bytes s = (.ok (), s')) := by
  have hk : seek os off s = (.ok (), s.tick) := by
    unfold seek
    rw [h1]
    simp only [hf]
    rw [if_neg]
    simp only [Bool.false_or, Bool.or_eq_true, decide_eq_true_eq, Bool.and_eq_true, not_or, Nat.not_le]
    exact ⟨ho, fun h => h.2 (ha h.1).1⟩
  have hmod : bytes % 2 ^ 32 = bytes := Nat.mod_eq_of_lt hs
  have hal : ¬ ((hd.unbuf && decide (bytes % os.sector ≠ 0)) = true) := by
    simp only [Bool.and_eq_true, decide_eq_true_eq]
    exact fun h => h.2 (ha h.1).2
  have g1 : s.tick.fd = some hd := h1
  have g2 : s.tick.file = some f := h2
  have hg : (!b.ndebug && decide (2 ^ 32 ≤ bytes)) = false := by
    rw [decide_eq_false (by omega), Bool.and_false]
  refine ⟨?_, ?_⟩
  · intro hr hz
    unfold serveRead M.bind
    rw [hk]
    simp only [hg, Bool.false_eq_true, if_false, g1, g2, hf, hr, hmod, Bool.not_true, Bool.false_or, if_neg hal]
    have := hm s.tick.calls
    rw [if_neg (by omega)]
    exact ⟨_, _, rfl⟩
  · intro hw
    unfold serveWrite M.bind
    rw [hk]
    simp only [hg, Bool.false_eq_true, if_false, g1, g2, hf, hw, hmod, Bool.not_true, Bool.false_or, if_neg hal]
    have := hm s.tick.calls
    rw [if_neg (by omega)]
    exact ⟨_, rfl⟩

/-- Two bytes written at the end of a file of one byte and read back. -/
example : ∃ s s' s'', construct {} {} { rdwr := true } (some { size := 1, byte := fun i => if i = 0 then 5 else 0 }) false = (.ok (), s) ∧
    serveWrite {} {} [8, 9] 1 2 s = (.ok (), s') ∧ serveRead {} {} [0, 0] 1 2 s' = (.ok [8, 9], s'') ∧ s''.file.map (·.size) = some 3 :=
  ⟨_, _, _, rfl, rfl, rfl, rfl⟩

/-! ### C113: `close_remove` on Windows

In full: when `close_remove` returns, the object has no handle and the file is gone; when it throws, nothing has changed. -/

/-- **C113 is false**: the result of `DeleteFileA` is ignored; it does not delete a file created with RDONLY. -/
theorem C113_false : ∃ s, construct {} {} { rdonly := true, creat := true } none false = (.ok (), s) ∧
    (closeRemove {} s).1 = .ok () ∧ (closeRemove {} s).2.file.map (·.size) = some 0 := ⟨_, rfl, rfl, rfl⟩

/-- **C113**, partial: the file is closed without losing data; it is gone unless it is read-only or deleting fails. -/
theorem C113_partial {os : Os} {s s' : St} {o : Out Unit} (h : closeRemove os s = (o, s')) :
    (o = .ok () ∧ s'.fd = none ∧ (s'.file = none ∨ (s'.file = s.file ∧ (s.readonly = true ∨ ∃ n, os.fails n = true)))) ∨
    (o = .throws ∧ s'.fd = s.fd ∧ s'.file = s.file ∧ s.fd ≠ none ∧ os.fails s.calls = true) := by
  unfold closeRemove close closeHandle M.bind at h
  cases hfd : s.fd with
  | none =>
    simp only [hfd] at h
    split at h
    · rename_i hc
      injection h with h1 h2
      subst h1; subst h2
      refine .inl ⟨rfl, hfd, .inr ⟨rfl, ?_⟩⟩
      rw [Bool.or_eq_true] at hc
      exact hc.symm.imp id (fun h => ⟨_, h⟩)
    · injection h with h1 h2
      subst h1; subst h2
      exact .inl ⟨rfl, hfd, .inl rfl⟩
  | some hd =>
    simp only [hfd] at h
    cases hf : os.fails s.calls
    · rw [hf] at h
      simp only [Bool.false_eq_true, if_false] at h
      split at h
      · rename_i hc
        injection h with h1 h2
        subst h1; subst h2
        refine .inl ⟨rfl, rfl, .inr ⟨rfl, ?_⟩⟩
        rw [Bool.or_eq_true] at hc
        exact hc.symm.imp id (fun h => ⟨_, h⟩)
      · injection h with h1 h2
        subst h1; subst h2
        exact .inl ⟨rfl, rfl, .inl rfl⟩
    · rw [hf] at h
      simp only [if_true] at h
      injection h with h1 h2
      subst h1; subst h2
      exact .inr ⟨rfl, hfd, rfl, by simp, rfl⟩

/-- An ordinary file is removed. -/
example : ∃ s, construct {} {} { rdwr := true, creat := true } none false = (.ok (), s) ∧ s.file.map (·.size) = some 0 ∧
    (closeRemove {} s).1 = .ok () ∧ (closeRemove {} s).2.file.isNone = true := ⟨_, rfl, rfl, rfl, rfl⟩

end Foxxll.Win
