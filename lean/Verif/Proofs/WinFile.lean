/-
Lemmas on the file implementation for Windows.
-/
import Verif.Model.WinFile

namespace Foxxll.Win
open Foxxll.Open (Mode)
open Foxxll.Files (File emptyFile pread store)

theorem bind_ok {α β : Type} {x : M α} {f : α → M β} {s s' : St} {r : β} (h : M.bind x f s = (.ok r, s')) :
    ∃ a s1, x s = (.ok a, s1) ∧ f a s1 = (.ok r, s') := by
  unfold M.bind at h
  split at h
  · rename_i a s1 e
    exact ⟨a, s1, e, h⟩
  all_goals cases h

theorem bind_throws {α β : Type} {x : M α} {f : α → M β} {s s' : St} (h : M.bind x f s = (.throws, s')) :
    x s = (.throws, s') ∨ ∃ a s1, x s = (.ok a, s1) ∧ f a s1 = (.throws, s') := by
  unfold M.bind at h
  split at h
  · rename_i a s1 e
    exact .inr ⟨a, s1, e, h⟩
  · rename_i s1 e
    injection h with _ h2
    subst h2
    exact .inl e
  all_goals cases h

/-- What `CreateFileA` leaves alone. -/
structure Same (s s' : St) : Prop where
  mode : s'.mode = s.mode
  fd : s'.fd = s.fd
  bps : s'.bps = s.bps
  locked : s'.locked = s.locked
  needAlign : s'.needAlign = s.needAlign

theorem Same.trans {a b c : St} (h : Same a b) (g : Same b c) : Same a c :=
  ⟨g.mode.trans h.mode, g.fd.trans h.fd, g.bps.trans h.bps, g.locked.trans h.locked, g.needAlign.trans h.needAlign⟩

theorem createFile_some {os : Os} {r w t u ro : Bool} {s s' : St} {hd : Handle} (h : createFile os r w t u ro s = (some hd, s')) :
    hd = { read := r, write := w, unbuf := u } ∧ Same s s' ∧ s'.calls = s.calls + 1 ∧ (u = true → os.direct s.calls = true) ∧ os.fails s.calls = false ∧
    (t = true → s.file ≠ none ∧ w = true) ∧ s'.file = some (if t then emptyFile else s.file.getD emptyFile) ∧
    s'.readonly = (if s.file = none then ro else s.readonly) := by
  unfold createFile at h
  split at h
  · cases h
  · rename_i hc
    simp only [Bool.or_eq_true, Bool.and_eq_true, Bool.not_eq_true'] at hc
    split at h
    · rename_i hf
      split at h
      · cases h
      · rename_i ht
        injection h with h1 h2
        injection h1 with h1
        subst h1; subst h2
        refine ⟨rfl, ⟨rfl, rfl, rfl, rfl, rfl⟩, rfl, ?_, ?_, ?_, ?_, ?_⟩
        · cases u <;> cases hd : os.direct s.calls <;> simp_all
        · cases hd : os.fails s.calls <;> simp_all
        · simp_all
        · simp [ht, hf]
        · simp [hf]
    · rename_i f hf
      split at h
      · cases h
      · rename_i hc2
        injection h with h1 h2
        injection h1 with h1
        subst h1; subst h2
        refine ⟨rfl, ⟨rfl, rfl, rfl, rfl, rfl⟩, rfl, ?_, ?_, ?_, ?_, ?_⟩
        · cases u <;> cases hd : os.direct s.calls <;> simp_all
        · cases hd : os.fails s.calls <;> simp_all
        · intro ht; subst ht; cases w <;> simp_all
        · simp [hf]
        · simp [St.tick, hf]

theorem createFile_none {os : Os} {r w t u ro : Bool} {s s' : St} (h : createFile os r w t u ro s = (none, s')) :
    s' = s.tick ∧ (os.fails s.calls = true ∨ (u = true ∧ os.direct s.calls = false) ∨ (s.file = none ∧ t = true) ∨
      (w = true ∧ s.readonly = true) ∨ (t = true ∧ w = false)) := by
  unfold createFile at h
  split at h
  · rename_i hc
    injection h with _ h2
    refine ⟨h2.symm, ?_⟩
    simp only [Bool.or_eq_true, Bool.and_eq_true, Bool.not_eq_true'] at hc
    rcases hc with hc | hc
    · exact .inl hc
    · exact .inr (.inl hc)
  · split at h
    · rename_i hf
      split at h
      · rename_i ht
        injection h with _ h2
        exact ⟨h2.symm, .inr (.inr (.inl ⟨hf, ht⟩))⟩
      · cases h
    · split at h
      · rename_i hc
        injection h with _ h2
        refine ⟨h2.symm, ?_⟩
        simp only [Bool.or_eq_true, Bool.and_eq_true, Bool.not_eq_true'] at hc
        rcases hc with hc | hc
        · exact .inr (.inr (.inr (.inl hc)))
        · exact .inr (.inr (.inr (.inr hc)))
      · cases h

/-- What `open_file_impl` does when it returns. -/
theorem openImpl_ok {os : Os} {b : Build} {m : Mode} {s s' : St} {o : Option Handle} (h : openImpl os b m s = (.ok o, s')) :
    (o = none ∧ s' = s ∧ m.direct = true ∧ b.directOff = true ∧ m.requireDirect = true) ∨
    ¬ (m.direct = true ∧ b.directOff = true ∧ m.requireDirect = true) ∧
    ∃ u, o = some { read := m.rdonly || m.rdwr, write := m.wronly || m.rdwr, unbuf := u } ∧ Same s s' ∧
      (u = true → m.direct = true ∧ b.directOff = false) ∧ (m.direct = true → m.requireDirect = true → u = true) ∧
      (m.direct = true → b.directOff = false → u = false → os.fails s.calls = true ∨ os.direct s.calls = false ∨ s.file = none ∨ s.readonly = true) ∧
      (m.trunc = true → s.file ≠ none) ∧ s'.file = some (if m.trunc then emptyFile else s.file.getD emptyFile) ∧
      s'.readonly = (if s.file = none then m.rdonly else s.readonly) := by
  unfold openImpl at h
  split at h
  · rename_i hc
    injection h with h1 h2
    injection h1 with h1
    simp only [Bool.and_eq_true] at hc
    exact .inl ⟨h1.symm, h2.symm, hc.1.1, hc.1.2, hc.2⟩
  · rename_i hc
    simp only [Bool.and_eq_true] at hc
    refine .inr ⟨fun ⟨a, b, c⟩ => hc ⟨⟨a, b⟩, c⟩, ?_⟩
    dsimp only at h
    split at h
    · rename_i hd s1 e
      injection h with h1 h2
      injection h1 with h1
      subst h1; subst h2
      obtain ⟨e1, e2, _, _, _, e6, e7, e8⟩ := createFile_some e
      refine ⟨_, by rw [e1], e2, ?_, ?_, ?_, fun ht => (e6 ht).1, e7, e8⟩
      · intro hu; simpa using hu
      · intro h1 h2; cases hb : b.directOff
        · simp [h1]
        · exact absurd ⟨⟨h1, hb⟩, h2⟩ hc
      · intro h1 h2 h3; simp [h1, h2] at h3
    · rename_i s1 e
      obtain ⟨e1, e2⟩ := createFile_none e
      split at h
      · rename_i hc2
        simp only [Bool.and_eq_true, Bool.not_eq_true'] at hc2
        split at h
        · rename_i hd s2 e'
          injection h with h1 h2
          injection h1 with h1
          subst h1; subst h2; subst e1
          obtain ⟨f1, f2, _, _, _, f6, f7, f8⟩ := createFile_some e'
          refine ⟨_, by rw [f1], Same.trans (b := s.tick) ⟨rfl, rfl, rfl, rfl, rfl⟩ f2, by simp, ?_, ?_, fun ht => (f6 ht).1, f7, f8⟩
          · intro _ h2; rw [hc2.2] at h2; cases h2
          · intro _ _ _
            rcases e2 with e2 | ⟨_, e2⟩ | ⟨e2, _⟩ | ⟨_, e2⟩ | ⟨e2, e3⟩
            · exact .inl e2
            · exact .inr (.inl e2)
            · exact .inr (.inr (.inl e2))
            · exact .inr (.inr (.inr e2))
            · exact absurd (f6 e2).2 (by rw [e3]; simp)
        · cases h
      · cases h

/-- When it throws, neither the file nor the object is changed. -/
theorem openImpl_throws {os : Os} {b : Build} {m : Mode} {s s' : St} (h : openImpl os b m s = (.throws, s')) :
    Same s s' ∧ s'.file = s.file ∧ s'.readonly = s.readonly := by
  unfold openImpl at h
  split at h
  · cases h
  · dsimp only at h
    split at h
    · cases h
    · rename_i s1 e
      obtain ⟨e1, _⟩ := createFile_none e
      split at h
      · split at h
        · cases h
        · rename_i s2 e'
          obtain ⟨f1, _⟩ := createFile_none e'
          injection h with _ h2
          subst h2; subst f1; subst e1
          exact ⟨⟨rfl, rfl, rfl, rfl, rfl⟩, rfl, rfl⟩
      · injection h with _ h2
        subst h2; subst e1
        exact ⟨⟨rfl, rfl, rfl, rfl, rfl⟩, rfl, rfl⟩

theorem openImpl_normal {os : Os} {b : Build} {m : Mode} {s : St} : (openImpl os b m s).1 ≠ .ub ∧ (openImpl os b m s).1 ≠ .abort := by
  unfold openImpl
  split
  · simp
  · dsimp only; split
    · simp
    · split
      · split <;> simp
      · simp

/-- The two ways `lock` may go on an object that is not locked. -/
theorem lock_some {os : Os} {s : St} {h : Handle} (hf : s.fd = some h) (hl : s.locked = false) :
    lock os s = if os.fails s.calls then (.throws, s.tick)
      else (.ok (), { s.tick with fd := some { h with locked := true }, locked := true }) := by
  unfold lock
  simp [hf, hl]

theorem setSector_ok (os : Os) (s : St) : ∃ s', setSector os s = (.ok (), s') ∧ s'.file = s.file ∧ s'.fd = s.fd ∧ s'.mode = s.mode ∧
    s'.locked = s.locked ∧ s'.needAlign = s.needAlign ∧ s'.readonly = s.readonly ∧
    (s'.bps = s.bps ∨ s'.bps = some 512 ∧ os.fails s.calls = true) := by
  unfold setSector
  split
  · split
    · rename_i h
      exact ⟨_, rfl, rfl, rfl, rfl, rfl, rfl, rfl, .inr ⟨rfl, h⟩⟩
    · exact ⟨_, rfl, rfl, rfl, rfl, rfl, rfl, rfl, .inl rfl⟩
  · exact ⟨_, rfl, rfl, rfl, rfl, rfl, rfl, rfl, .inl rfl⟩

theorem seek_ok {os : Os} {pos : Nat} {s s' : St} (h : seek os pos s = (.ok (), s')) : s' = s.tick ∧ pos < 2 ^ 63 := by
  unfold seek at h
  split at h
  · cases h
  · split at h
    · cases h
    · rename_i hc
      injection h with _ h2
      simp only [Bool.or_eq_true, decide_eq_true_eq] at hc
      exact ⟨h2.symm, Nat.lt_of_not_le (fun h => hc (.inl (.inr h)))⟩

theorem seek_throws {os : Os} {pos : Nat} {s s' : St} (h : seek os pos s = (.throws, s')) : s' = s.tick := by
  unfold seek at h
  split at h
  · injection h with _ h2; exact h2.symm
  · split at h
    · injection h with _ h2; exact h2.symm
    · cases h

theorem setEnd_ok {os : Os} {n : Nat} {s s' : St} (h : setEnd os n s = (.ok (), s')) :
    ∃ f, s.file = some f ∧ s' = { s.tick with file := some (endAt os f n) } := by
  unfold setEnd at h
  split at h
  · rename_i f _ hf
    split at h
    · cases h
    · injection h with _ h2
      exact ⟨_, hf, h2.symm⟩
  · cases h

theorem setEnd_throws {os : Os} {n : Nat} {s s' : St} (h : setEnd os n s = (.throws, s')) : s' = s.tick := by
  unfold setEnd at h
  split at h
  · split at h
    · injection h with _ h2; exact h2.symm
    · cases h
  · injection h with _ h2; exact h2.symm

theorem size_ok {os : Os} {n : Nat} {s s' : St} (h : size os s = (.ok n, s')) :
    s' = s.tick ∧ (∃ hd, s.fd = some hd) ∧ ∃ f, s.file = some f ∧ f.size = n := by
  unfold size at h
  split at h
  · rename_i hd f h1 h2
    split at h
    · cases h
    · injection h with h3 h4
      injection h3 with h3
      exact ⟨h4.symm, ⟨_, h1⟩, _, h2, h3⟩
  · cases h

theorem size_throws {os : Os} {s s' : St} (h : size os s = (.throws, s')) : s' = s.tick := by
  unfold size at h
  split at h
  · split at h
    · injection h with _ h2; exact h2.symm
    · cases h
  · injection h with _ h2; exact h2.symm

theorem closeHandle_ok {os : Os} {s s' : St} (h : closeHandle os s = (.ok (), s')) : s' = { s.tick with fd := none } := by
  unfold closeHandle at h
  split at h
  · cases h
  · injection h with _ h2; exact h2.symm

theorem reopen_ok {os : Os} {b : Build} {m : Mode} {s s' : St} (h : reopen os b m s = (.ok (), s')) (ht : m.trunc = false) (hf : s.file ≠ none) :
    s'.file = s.file ∧ s'.mode = s.mode ∧ s'.locked = s.locked ∧ s'.bps = s.bps ∧
    (s'.fd = none ∨ ∃ u, s'.fd = some { read := m.rdonly || m.rdwr, write := m.wronly || m.rdwr, unbuf := u }) := by
  obtain ⟨_, s1, h1, h2⟩ := bind_ok h
  have e1 := closeHandle_ok h1
  obtain ⟨o, s2, h3, h4⟩ := bind_ok h2
  injection h4 with _ h4
  subst h4; subst e1
  rcases openImpl_ok h3 with ⟨h5, h6, _⟩ | ⟨_, u, h5, h6, _, _, _, _, h7, _⟩
  · subst h6
    exact ⟨rfl, rfl, rfl, rfl, .inl h5⟩
  · obtain ⟨f, hf'⟩ := Option.ne_none_iff_exists'.1 hf
    refine ⟨?_, h6.mode, h6.locked, h6.bps, .inr ⟨u, h5⟩⟩
    rw [h7]; simp [ht, St.tick, hf']

end Foxxll.Win
