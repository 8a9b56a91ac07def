import Verif.Proofs.OpenFile
/-
C75-C80: opening files.
-/
set_option linter.unusedSimpArgs false
namespace Foxxll.Open
open Foxxll.Config (Str Disk Direct Cfg)

/-! ### Example systems -/

/-- Everything succeeds; files are regular. -/
def okOs : Os where
  opened _ _ _ := .ok
  fstat _ := some false
  setlk _ _ := true
  lseekEnd _ := some 7
  lseekSet _ := true
  ftruncate _ := true
  write _ := true
  unlink _ _ := true
  remove _ _ := true
  close _ := true

/-- A file system without `O_DIRECT`. -/
def noDirectOs : Os := { okOs with opened := fun _ _ f => if f.direct then .einval else .ok }

/-- All files are block devices. -/
def devOs : Os := { okOs with fstat := fun _ => some true }

/-- Another process holds the lock. -/
def lockedOs : Os := { okOs with setlk := fun _ _ => false }

def st0 (d : Disk) : St := { ev := [], disk := d, cfg := { disks := [d], firstFlash := 1, isInit := true, maxDev := 0 } }

def dsk (io : String) : Disk := { path := "d".toList, ioImpl := io.toList }

/-- The mode of `block_manager`. -/
def mgrMode : Mode := { creat := true, rdwr := true }

/-- Calls made by a run. -/
def evs {α : Type} (x : M α) (s : St) : List Ev := (x s).2.ev

/-! ### C75: direct I/O as asked for -/

/-- A file returned by `create_file` has a descriptor, opened with the access flags of the mode.
Direct I/O demanded by the configuration is on; without the wish it is off; if it is only to be
tried, it is off only if the build does not have it or the file system refused it with `EINVAL`. -/
theorem C75_direct {os : Os} {b : Build} {m : Mode} {a : Int} {s s' : St} {o : FileObj} {f : Ufs}
    (h : createFile os b m a s = (.ok o, s')) (hf : o.ufs = some f) :
    ∃ fl l, f.fd = some fl ∧ s'.ev = s.ev ++ l ∧ .open f.path fl true ∈ l ∧
      fl.wronly = m.wronly ∧ fl.rdwr = m.rdwr ∧ fl.creat = m.creat ∧ fl.trunc = m.trunc ∧ fl.sync = m.sync ∧
      (s.disk.direct = .on → fl.direct = true) ∧
      (s.disk.direct = .off → fl.direct = false) ∧
      (s.disk.direct = .try_ → fl.direct = true ∨ b.directOff = true ∨
        os.opened s.ev f.path { fl with direct := true } = .einval) := by
  obtain ⟨k, hk, h1, _⟩ := createFile_ok h
  have hev : (setQueue k (setId s)).ev = s.ev := by rw [(setQueue_fields k _).1]; rfl
  rcases openKind_ok h1 with ⟨_, h2, _⟩ | ⟨_, f', s1, l, r, h2, h3, h4, _, h5, _, _⟩
  · rw [h2] at hf; cases hf
  · rw [h2] at hf; cases hf
    have hp := (construct_ok h3).1
    obtain ⟨fl, hfl⟩ := Option.isSome_iff_exists.mp h4
    obtain ⟨pre, hpre, hadd⟩ := construct_evs h3 hfl
    refine ⟨fl, pre ++ .open f.path fl true :: initEvs (applyDirect s.disk.direct m) ++ l ++ .setlk (!(applyDirect s.disk.direct m).rdonly) true :: r, hfl, by rw [h5, hadd, hev, hp]; simp, by simp, ?_⟩
    have hd : ∀ d, (applyDirect d m).wronly = m.wronly ∧ (applyDirect d m).rdwr = m.rdwr ∧ (applyDirect d m).creat = m.creat ∧
        (applyDirect d m).trunc = m.trunc ∧ (applyDirect d m).sync = m.sync := by intro d; cases d <;> exact ⟨rfl, rfl, rfl, rfl, rfl⟩
    obtain ⟨e1, e2, e3, e4, e5⟩ := hd s.disk.direct
    rcases (construct_ok h3).2.2 with hc | ⟨hn, _, hc, _⟩ | ⟨hb, hm, hr, hei, hc, _⟩
    · rw [hc.2.2.2.1] at h4; cases h4
    · rw [hc] at hfl; cases hfl
      refine ⟨e1, e2, e3, e4, e5, ?_, ?_, ?_⟩
      · intro hd
        simp only [hd, applyDirect, and_true] at hn
        simp [flagsOf, hd, applyDirect, hn]
      · intro hd; simp [flagsOf, hd, applyDirect]
      · intro hd
        cases hb : b.directOff with
        | true => exact .inr (.inl rfl)
        | false => exact .inl (by simp [flagsOf, hd, applyDirect, hb])
    · rw [hc] at hfl; cases hfl
      refine ⟨e1, e2, e3, e4, e5, ?_, fun _ => rfl, ?_⟩
      · intro hd; rw [hd] at hr; cases hr
      · intro hd
        refine .inr (.inr ?_)
        rw [hev, ← hp] at hei
        have : (flagsOf b (applyDirect s.disk.direct m)) = { flagsOf b (applyDirect s.disk.direct m) with direct := true } := by
          simp [flagsOf, hm, hb]
        rw [this] at hei; exact hei

/-- A build without direct I/O opens no file for which it is demanded. -/
theorem C75_required {os : Os} {b : Build} {m : Mode} {a : Int} {s s' : St} {o : FileObj}
    (hb : b.directOff = true) (hd : s.disk.direct = .on) (h : createFile os b m a s = (.ok o, s')) : o.kind = .memory := by
  obtain ⟨k, hk, h1, h0⟩ := createFile_ok h
  rcases openKind_ok h1 with ⟨h2, _⟩ | ⟨_, f', s1, l, r, h2, h3, h4, _⟩
  · rw [h0]; exact h2
  · rcases (construct_ok h3).2.2 with hc | ⟨hn, _⟩ | ⟨hb', _⟩
    · rw [hc.2.2.2.1] at h4; cases h4
    · exact absurd ⟨hb, by rw [hd]; rfl⟩ hn
    · rw [hb] at hb'; cases hb'

/-- If direct I/O is only to be tried, a file system that refuses nothing but `O_DIRECT` is no
obstacle. -/
theorem C75_fallback {os : Os} {b : Build} {m : Mode} {path : Str} {s : St} (hm : m.direct = true) (hr : m.requireDirect = false)
    (hos : ∀ h f, f.direct = false → os.opened h path f = .ok) (hos' : ∀ h f, os.opened h path f ≠ .other)
    (hst : ∀ h, os.fstat h ≠ none) (hlk : ∀ h x, os.setlk h x = true) :
    ∃ f s', construct os b path m s = (.ok f, s') ∧ f.fd.isSome := by
  have hao : ∀ (f : Ufs) (s : St), f.fd.isSome → ∃ f' s', afterOpen os f s = (.ok f', s') ∧ f'.fd.isSome := by
    intro f s hf
    unfold afterOpen
    cases hs : os.fstat s.ev with
    | none => exact absurd hs (hst _)
    | some d =>
      obtain ⟨fl, hfl⟩ := Option.isSome_iff_exists.mp hf
      cases hn : f.mode.noLock with
      | true => exact ⟨{ f with isDevice := d }, { s with ev := s.ev ++ [.fstat true] }, by simp [M.bind, note, M.pure, hn], hf⟩
      | false => exact ⟨{ f with isDevice := d }, { s with ev := s.ev ++ [.fstat true, .setlk (!f.mode.rdonly) true] }, by simp [M.bind, note, M.pure, hn, lock, hfl, call, hlk], hf⟩
  unfold construct
  simp only [hr, Bool.and_false, Bool.false_eq_true, if_false]
  cases ho : os.opened s.ev path (flagsOf b m) with
  | ok =>
    obtain ⟨f', s', h1, h2⟩ := hao { path := path, mode := m, fd := some (flagsOf b m), isDevice := os.junk, needAlign := m.direct } { s with ev := s.ev ++ [.open path (flagsOf b m) true] } rfl
    exact ⟨f', s', by simpa [M.bind, note] using h1, h2⟩
  | einval =>
    have hb : b.directOff = false := by
      cases hb : b.directOff with
      | false => rfl
      | true => rw [hos _ _ (by simp [flagsOf, hb])] at ho; cases ho
    obtain ⟨f', s', h1, h2⟩ := hao { path := path, mode := m, fd := some { flagsOf b m with direct := false }, isDevice := os.junk, needAlign := false }
      { s with ev := s.ev ++ [.open path (flagsOf b m) false] ++ [.open path { flagsOf b m with direct := false } true] } rfl
    refine ⟨f', s', ?_, h2⟩
    simp only [hb, hm, Bool.not_false, Bool.and_self, decide_true, if_true, M.bind, note]
    rw [hos _ { flagsOf b m with direct := false } rfl]
    exact h1
  | other => exact absurd ho (hos' _ _)

/-- The same for `create_file` with a mode: REQUIRE_DIRECT, DIRECT or neither. -/
theorem C75_named {os : Os} {b : Build} {io path : Str} {m : Mode} {q a : Int} {s s' : St} {o : FileObj} {f : Ufs}
    (h : createNamed os b io path m q a s = (.ok o, s')) (hf : o.ufs = some f) :
    ∃ fl, f.fd = some fl ∧ (m.requireDirect = true → fl.direct = true) ∧
      (m.requireDirect = false → m.direct = false → fl.direct = false) := by
  unfold createNamed at h
  cases hd : Config.mkDisk path 0 io with
  | runtimeError => rw [hd] at h; cases h
  | outOfRange => rw [hd] at h; cases h
  | ub => rw [hd] at h; cases h
  | ok d =>
    rw [hd] at h
    obtain ⟨fl, l, h1, _, _, _, _, _, _, _, h2, h3, _⟩ := C75_direct h hf
    refine ⟨fl, h1, fun hm => h2 (by simp [directOf, hm]), fun hm hm' => h3 (by simp [directOf, hm, hm'])⟩

example : evs (createFile noDirectOs {} mgrMode 0) (st0 (dsk "syscall")) =
    [.open "d".toList { rdwr := true, creat := true, direct := true } false,
     .open "d".toList { rdwr := true, creat := true } true, .fstat true, .setlk true true, .setlk true true] := by rfl
example : ∃ o s', createFile noDirectOs {} mgrMode 0 (st0 (dsk "syscall")) = (.ok o, s') ∧ o.ufs.isSome := ⟨_, _, rfl, rfl⟩
example : (createFile noDirectOs {} mgrMode 0 (st0 { dsk "syscall" with direct := .on })).1 = .throws .ioError := by rfl
example : ∃ o s', createFile okOs { directOff := true } mgrMode 0 (st0 { dsk "memory" with direct := .on }) = (.ok o, s') := ⟨_, _, rfl⟩
example : ∃ o s', createNamed okOs {} "mmap".toList "x".toList { rdwr := true, requireDirect := true } 3 4 (st0 {}) = (.ok o, s') ∧ o.ufs.isSome ∧ o.queue = 3 :=
  ⟨_, _, rfl, rfl, rfl⟩
example : (∀ h f, f.direct = false → noDirectOs.opened h [] f = .ok) ∧ (∀ h f, noDirectOs.opened h [] f ≠ .other) := by
  constructor
  · intro h f hf; simp [noDirectOs, hf]
  · intro h f; simp only [noDirectOs]; split <;> simp

/-! ### C76: descriptors -/

/-- The property fails: if the file is locked by another process, the constructor throws after
`open` and the descriptor is never closed. -/
theorem C76_false : ∃ (os : Os) (d : Disk) (s' : St), createFile os {} mgrMode 0 (st0 d) = (.throws .ioError, s') ∧ live s'.ev = 1 :=
  ⟨lockedOs, dsk "syscall", _, rfl, rfl⟩

/-- Exactly this is missing: an exception of `create_file` leaves one descriptor open if the last
call made was a failed `fstat` or `F_SETLK`, and none otherwise.  A returned file has one. -/
theorem C76_partial {os : Os} {b : Build} {m : Mode} {a : Int} {s s' : St} {r : Out FileObj} (h : createFile os b m a s = (r, s')) :
    (∀ e, r = .throws e → ∃ l, s'.ev = s.ev ++ l ∧ live l = leak l) ∧
    (∀ o, r = .ok o → ∃ l, s'.ev = s.ev ++ l ∧ live l = if o.kind = .memory then 0 else 1) := by
  constructor
  · rintro e rfl; exact createFile_leak h
  · rintro o rfl
    obtain ⟨l, h1, h2, _⟩ := createFile_live h
    refine ⟨l, h1, ?_⟩
    rw [h2]
    obtain ⟨k, _, h3, h4⟩ := createFile_ok h
    have hk : o.kind = k := by rw [h4]
    rw [hk]
    rcases openKind_ok h3 with ⟨h5, h6, _⟩ | ⟨h5, f, _, _, _, h6, _⟩
    · rw [h6]; simp [h5]
    · rw [h6]; simp [h5]

/-- All disks: if opening one fails, the files opened before are closed; at most the descriptor of
the disk that failed remains, after a failed `fstat` or `F_SETLK`. -/
theorem C76_disks {os : Os} {b : Build} {ds : List Disk} {i : Nat} {s s' : St} {r : Out (List FileObj)}
    (h : openDisks os b i ds s = (r, s')) :
    (∀ e, r = .throws e → ∃ l, s'.ev = s.ev ++ l ∧ (live l = 0 ∨ (live l = 1 ∧ ∃ x ∈ l, x.initFailed = true))) ∧
    (∀ fs, r = .ok fs → ∃ l, s'.ev = s.ev ++ l ∧ live l = files fs ∧ fs.length = ds.length) := by
  constructor
  · rintro e rfl; exact openDisks_throw h
  · rintro fs rfl; exact openDisks_ok h

example : (createFile lockedOs {} { mgrMode with noLock := true } 0 (st0 (dsk "syscall"))).2.ev.getLast? = some (.close true) := by rfl
example : leak (evs (createFile lockedOs {} mgrMode 0) (st0 (dsk "syscall"))) = 1 := by rfl
example : (openDisks { okOs with fstat := fun h => if h.length < 4 then some false else none } {} 0 [dsk "syscall", dsk "mmap"] (st0 {})).1 = .throws .ioError := by rfl
example : ∃ fs s', openDisks okOs {} 0 [dsk "syscall", dsk "memory", dsk "fileperblock_mmap"] (st0 {}) = (.ok fs, s') ∧ files fs = 2 := ⟨_, _, rfl, rfl⟩

/-! ### C77: locks -/

/-- The property fails: `create_file` locks files opened with NO_LOCK. -/
theorem C77_false : ∃ (s' : St) (o : FileObj), createFile okOs {} { rdwr := true, noLock := true } 0 (st0 (dsk "syscall")) = (.ok o, s') ∧
    .setlk true true ∈ s'.ev := ⟨_, _, rfl, by decide⟩

/-- What holds: without NO_LOCK, every file from `create_file` holds the lock: after it was opened
the lock was granted - exclusive unless it is read-only - and the file was not closed. -/
theorem C77_partial {os : Os} {b : Build} {m : Mode} {a : Int} {s s' : St} {o : FileObj} {f : Ufs}
    (h : createFile os b m a s = (.ok o, s')) (hf : o.ufs = some f) :
    ∃ fl pre post, s'.ev = s.ev ++ pre ++ .setlk (!m.rdonly) true :: post ∧ .open f.path fl true ∈ pre ∧
      ∀ x ∈ pre ++ post, x.isClose = false := by
  obtain ⟨k, hk, h1, _⟩ := createFile_ok h
  have hev : (setQueue k (setId s)).ev = s.ev := by rw [(setQueue_fields k _).1]; rfl
  rcases openKind_ok h1 with ⟨_, h2, _⟩ | ⟨_, f', s1, l, r, h2, h3, h4, _, h5, h6, _⟩
  · rw [h2] at hf; cases hf
  · rw [h2] at hf; cases hf
    have hp := (construct_ok h3).1
    obtain ⟨fl, hfl⟩ := Option.isSome_iff_exists.mp h4
    obtain ⟨pre, hpre, hadd⟩ := construct_evs h3 hfl
    have hm : (applyDirect s.disk.direct m).rdonly = m.rdonly := by cases s.disk.direct <;> rfl
    rw [hm] at h5
    refine ⟨fl, pre ++ .open f.path fl true :: initEvs (applyDirect s.disk.direct m) ++ l, r, ?_, by simp, ?_⟩
    · rw [h5, hadd, hev, hp]; simp
    · intro x hx
      have hq : ∀ y : Ev, y.quiet = true → y.isClose = false := by intro y; cases y <;> simp [Ev.quiet, Ev.isClose]
      simp only [List.append_assoc, List.cons_append, List.mem_append, List.mem_cons] at hx
      rcases hx with hx | rfl | hx | hx
      · rcases hpre with rfl | rfl
        · simp at hx
        · simp at hx; subst hx; rfl
      · rfl
      · exact hq _ (initEvs_quiet _ x hx)
      · exact hq _ (h6 x (by simp; exact hx))

/-- NO_LOCK is honoured by the constructor alone: then it asks for no lock, otherwise for one. -/
theorem C77_constructor_partial {os : Os} {b : Build} {path : Str} {m : Mode} {s s' : St} {f : Ufs}
    (h : construct os b path m s = (.ok f, s')) (hf : f.fd.isSome) :
    ∃ l, s'.ev = s.ev ++ l ∧ l.countP Ev.isSetlk = if m.noLock then 0 else 1 := by
  obtain ⟨fl, hfl⟩ := Option.isSome_iff_exists.mp hf
  obtain ⟨pre, hpre, hadd⟩ := construct_evs h hfl
  refine ⟨_, by rw [hadd], ?_⟩
  unfold initEvs
  rcases hpre with rfl | rfl <;> cases m.noLock <;> rfl

example : ∃ o s', createFile okOs {} { rdonly := true } 0 (st0 (dsk "linuxaio")) = (.ok o, s') ∧ o.ufs.isSome := ⟨_, _, rfl, rfl⟩
example : evs (createFile okOs {} { rdonly := true } 0) (st0 (dsk "linuxaio")) =
  [.open "d".toList { direct := true } true, .fstat true, .setlk false true, .setlk false true] := by rfl
example : evs (construct okOs {} [] { rdwr := true, noLock := true }) (st0 {}) = [.open [] { rdwr := true } true, .fstat true] := by rfl

/-! ### C78: device nodes -/

/-- Destruction of the configuration at the end of the program. -/
def atExit (os : Os) (s : St) : List Ev := evs (removeDisks os [s.disk]) { s with ev := [] }

/-- The property fails: the node of a device that is in use elsewhere, with the option to delete it
on exit, is removed. -/
theorem C78_false_locked : ∃ (d : Disk) (s' : St), d.deleteOnExit = true ∧
    createFile { devOs with setlk := fun _ _ => false } {} mgrMode 0 (st0 d) = (.throws .ioError, s') ∧
    ∃ x ∈ atExit devOs s', x.removes d.path = true :=
  ⟨{ dsk "syscall" with deleteOnExit := true }, _, rfl, rfl, .unlink "d".toList true, by decide, by decide⟩

/-- It also fails for a device used with mmap, even though it could be opened. -/
theorem C78_false_mmap : ∃ (d : Disk) (s' : St) (o : FileObj), d.deleteOnExit = true ∧
    createFile devOs {} mgrMode 0 (st0 d) = (.ok o, s') ∧ ∃ x ∈ atExit devOs s', x.removes d.path = true :=
  ⟨{ dsk "mmap" with deleteOnExit := true }, _, _, rfl, rfl, .unlink "d".toList true, by decide, by decide⟩

/-- What holds: opening a device removes and truncates nothing, whatever the options; for syscall
and linuxaio the options to delete and to grow the file are cleared, the size is that of the device,
so that nothing is removed on exit. -/
theorem C78_partial {os : Os} {b : Build} {m : Mode} {a : Int} {s s' : St} {o : FileObj} {f : Ufs}
    (h : createFile os b m a s = (.ok o, s')) (hf : o.ufs = some f) (hd : f.isDevice = true) :
    (∃ l, s'.ev = s.ev ++ l ∧ ∀ x ∈ l, x.destructive = false) ∧
    ((o.kind = .syscall ∨ o.kind = .linuxaio) →
      s'.disk.rawDevice = true ∧ s'.disk.autogrow = false ∧ s'.disk.deleteOnExit = false ∧ s'.disk.unlinkOnOpen = false ∧
      (∃ hist, os.lseekEnd hist = some s'.disk.size) ∧ ∀ os', atExit os' s' = []) := by
  obtain ⟨k, hk, h1, h0⟩ := createFile_ok h
  have hev : (setQueue k (setId s)).ev = s.ev := by rw [(setQueue_fields k _).1]; rfl
  have hkk : o.kind = k := by rw [h0]
  rw [hkk]
  rcases openKind_ok h1 with ⟨_, h2, _⟩ | ⟨_, f', s1, l, r, h2, h3, h4, _, h5, _, h6, h7⟩
  · rw [h2] at hf; cases hf
  · rw [h2] at hf; cases hf
    obtain ⟨fl, hfl⟩ := Option.isSome_iff_exists.mp h4
    obtain ⟨pre, hpre, hadd⟩ := construct_evs h3 hfl
    refine ⟨⟨pre ++ .open (nameOf k (setQueue k (setId s)).disk.path) fl true :: initEvs (applyDirect s.disk.direct m) ++ l ++ .setlk (!(applyDirect s.disk.direct m).rdonly) true :: r, ?_, ?_⟩, ?_⟩
    · rw [h5, hadd, hev]; simp
    · intro x hx
      simp only [List.append_assoc, List.cons_append, List.mem_append, List.mem_cons] at hx
      rcases hx with hx | rfl | hx | hx | rfl | hx
      · rcases hpre with rfl | rfl
        · simp at hx
        · simp at hx; subst hx; rfl
      · rfl
      · unfold initEvs at hx
        cases hn : (applyDirect s.disk.direct m).noLock <;> rw [hn] at hx <;> simp at hx
        · rcases hx with rfl | rfl <;> rfl
        · rw [hx]; rfl
      · exact h6 hd x (by simp [hx])
      · rfl
      · exact h6 hd x (by simp [hx])
    · intro hki
      rcases h7 with ⟨_, h8⟩ | ⟨_, _, n, hist, h8, h9⟩
      · have := (h8 hki).1; rw [hd] at this; cases this
      · rw [h9]
        refine ⟨rfl, rfl, rfl, rfl, ⟨hist, h8⟩, ?_⟩
        intro os'
        simp only [atExit, h9, evs, removeDisks, asDevice, M.bind, Bool.false_eq_true, if_false, M.pure]

/-- A disk configured as raw device is used only if it is one. -/
theorem C78_expected {os : Os} {b : Build} {m : Mode} {a : Int} {s s' : St} {o : FileObj} {f : Ufs}
    (h : createFile os b m a s = (.ok o, s')) (hf : o.ufs = some f) (hr : s.disk.rawDevice = true)
    (hk : o.kind = .syscall ∨ o.kind = .linuxaio) : f.isDevice = true := by
  obtain ⟨k, _, h1, h0⟩ := createFile_ok h
  have hkk : o.kind = k := by rw [h0]
  rw [hkk] at hk
  rcases openKind_ok h1 with ⟨_, h2, _⟩ | ⟨_, f', s1, l, r, h2, h3, h4, _, h5, _, h6, h7⟩
  · rw [h2] at hf; cases hf
  · rw [h2] at hf; cases hf
    rcases h7 with ⟨_, h8⟩ | ⟨_, h8, _⟩
    · have h9 := (h8 hk).2
      rw [(setQueue_fields k _).2.2, (setId_fields s).2] at h9
      have h10 : s.disk.rawDevice = false := h9
      rw [hr] at h10; cases h10
    · exact h8

example : ∃ o f s', createFile devOs {} mgrMode 0 (st0 { dsk "syscall" with rawDevice := true, deleteOnExit := true, unlinkOnOpen := true }) = (.ok o, s') ∧
    o.ufs = some f ∧ f.isDevice = true ∧ s'.disk.size = 7 := ⟨_, _, _, rfl, rfl, rfl, rfl⟩
example : (createFile okOs {} mgrMode 0 (st0 { dsk "syscall" with rawDevice := true })).1 = .throws .ioError := by rfl

/-! ### C79: deletion on exit -/

/-- The property fails: a program that only reads the default configuration removes the file on
exit, though it never opened it. -/
theorem C79_false : ∃ d ∈ (Config.loadDefault (Config.construct 0 0)).disks,
    ∃ x ∈ evs (removeDisks okOs [d]) (st0 d), x.removes d.path = true :=
  ⟨_, List.mem_singleton.mpr rfl, .unlink "/var/tmp/foxxll".toList true, by decide, by decide⟩

/-- What holds: exactly the disks with the option are unlinked, each once, in order, and nothing
else happens. -/
theorem C79_partial (os : Os) (ds : List Disk) (s : St) :
    ∃ l s', removeDisks os ds s = (.ok (), s') ∧ s'.ev = s.ev ++ l ∧
      l.map (fun e => match e with | .unlink p _ => some p | _ => none) = (ds.filter (·.deleteOnExit)).map (fun d => some d.path) := by
  induction ds generalizing s with
  | nil => exact ⟨[], s, rfl, by simp, rfl⟩
  | cons d ds ih =>
    cases hd : d.deleteOnExit with
    | false =>
      obtain ⟨l, s', h1, h2, h3⟩ := ih s
      exact ⟨l, s', by simpa [removeDisks, M.bind, hd] using h1, h2, by simpa [hd] using h3⟩
    | true =>
      obtain ⟨l, s', h1, h2, h3⟩ := ih { s with ev := s.ev ++ [.unlink d.path (os.unlink s.ev d.path)] }
      exact ⟨.unlink d.path (os.unlink s.ev d.path) :: l, s', by simpa [removeDisks, M.bind, hd, note] using h1, by simpa using h2,
        by simpa [hd] using h3⟩

example : evs (removeDisks okOs [{ dsk "mmap" with deleteOnExit := true }, dsk "memory"]) (st0 {}) = [.unlink "d".toList true] := by rfl

/-! ### C80: alignment -/

/-- The property fails for a file constructed with REQUIRE_DIRECT only: direct, but alignment is not
checked. -/
theorem C80_false : ∃ (f : Ufs) (s' : St) (fl : Flags), construct okOs {} [] { rdwr := true, requireDirect := true } (st0 {}) = (.ok f, s') ∧
    f.fd = some fl ∧ fl.direct = true ∧ f.needAlign = false := ⟨_, _, _, rfl, rfl, rfl, rfl⟩

/-- What holds: files from `create_file` check alignment exactly if they are direct, provided that
the build has direct I/O (otherwise also if it was wished for). -/
theorem C80_partial {os : Os} {b : Build} {m : Mode} {a : Int} {s s' : St} {o : FileObj} {f : Ufs} {fl : Flags}
    (h : createFile os b m a s = (.ok o, s')) (hf : o.ufs = some f) (hfl : f.fd = some fl) :
    (b.directOff = false → f.needAlign = fl.direct) ∧ (fl.direct = true → f.needAlign = true) := by
  obtain ⟨k, hk, h1, _⟩ := createFile_ok h
  rcases openKind_ok h1 with ⟨_, h2, _⟩ | ⟨_, f', s1, l, r, h2, h3, h4, _, h5, _⟩
  · rw [h2] at hf; cases hf
  · rw [h2] at hf; cases hf
    have hrd : (applyDirect s.disk.direct m).requireDirect = true → (applyDirect s.disk.direct m).direct = true := by
      cases s.disk.direct <;> simp [applyDirect]
    rcases (construct_ok h3).2.2 with hc | ⟨hn, _, hc, hal, _⟩ | ⟨hb, hm, hr, _, hc, hal, _⟩
    · rw [hc.2.2.2.1] at h4; cases h4
    · rw [hc] at hfl; cases hfl
      rw [hal]
      constructor
      · intro hb
        cases hd : (applyDirect s.disk.direct m).direct with
        | true => simp [flagsOf, hb, hd]
        | false =>
          cases hr : (applyDirect s.disk.direct m).requireDirect with
          | true => rw [hrd hr] at hd; cases hd
          | false => simp [flagsOf, hd, hr]
      · intro hd
        simp only [flagsOf, Bool.and_eq_true, Bool.or_eq_true] at hd
        rcases hd.1 with h | h
        · exact h
        · exact hrd h
    · rw [hc] at hfl; cases hfl
      exact ⟨fun _ => hal, fun hd => by cases hd⟩

example : ∃ o f fl s', createFile okOs {} mgrMode 0 (st0 (dsk "syscall")) = (.ok o, s') ∧ o.ufs = some f ∧ f.fd = some fl ∧ f.needAlign = true :=
  ⟨_, _, _, _, rfl, rfl, rfl, rfl⟩
example : ∃ o f s', createFile noDirectOs {} mgrMode 0 (st0 (dsk "syscall")) = (.ok o, s') ∧ o.ufs = some f ∧ f.needAlign = false :=
  ⟨_, _, _, rfl, rfl, rfl⟩

/-! ### C39, C78 for all disks -/

/-- A disk without device id gets one that no disk before has; a disk with a device id keeps it.  (As
long as the ids do not come near 2^32.) -/
theorem C39_disks_partial {os : Os} {b : Build} {ds : List Disk} {s s' : St} {l : List FileObj} {B : Nat}
    (h : openDisks os b 0 ds s = (.ok l, s')) (hd : ∀ d ∈ ds, d.deviceId = 2 ^ 32 - 1 ∨ d.deviceId < B) (hm : s.cfg.maxDev ≤ B)
    (hB : B + ds.length ≤ 2 ^ 32 - 2) :
    (∀ (j : Nat) (o : FileObj) (d : Disk), l[j]? = some o → ds[j]? = some d → d.deviceId ≠ 2 ^ 32 - 1 → o.device = d.deviceId) ∧
    (∀ (j k : Nat) (o o' : FileObj) (d : Disk), j < k → l[j]? = some o → l[k]? = some o' → ds[k]? = some d → d.deviceId = 2 ^ 32 - 1 → o.device ≠ o'.device) := by
  obtain ⟨h1, h2⟩ := openDisks_ids h hd hm hB
  refine ⟨fun j o d hj hdj => (h1 j o d hj hdj).1, ?_⟩
  intro j k o o' d hjk hj hk hdk he
  have := h2 j k o o' d hjk hj hk hdk he
  omega

example : ∃ l s', openDisks okOs {} 0 [{ dsk "syscall" with deviceId := 4 }, dsk "memory", dsk "mmap"] (st0 {}) = (.ok l, s') ∧
    l.map (·.device) = [4, 5, 6] := ⟨_, _, rfl, rfl⟩

/-- The options seen by `~config` after all disks were opened: a disk keeps its wish to be deleted,
unless it is a device opened with syscall or linuxaio. -/
theorem C78_disks_partial {os : Os} {b : Build} {s s' : St} {l : List FileObj} (h : openDisks os b 0 s.cfg.disks s = (.ok l, s')) :
    s'.cfg.disks.length = s.cfg.disks.length ∧
    ∀ (j : Nat) (o : FileObj) (d d' : Disk), l[j]? = some o → s.cfg.disks[j]? = some d → s'.cfg.disks[j]? = some d' →
      d'.path = d.path ∧ (d'.deleteOnExit = true ↔ d.deleteOnExit = true ∧
        ¬ ((o.kind = .syscall ∨ o.kind = .linuxaio) ∧ ∃ f, o.ufs = some f ∧ f.isDevice = true)) := by
  obtain ⟨h1, _, h3⟩ := openDisks_config h (by omega)
  refine ⟨h1, ?_⟩
  intro j o d d' hj hd hd'
  obtain ⟨d2, h4, h5, h6⟩ := h3 j o d hj hd
  rw [Nat.zero_add, hd'] at h4
  cases h4
  refine ⟨h5, ?_⟩
  rw [h6]
  by_cases hk : o.kind = .syscall ∨ o.kind = .linuxaio <;> cases o.ufs <;> simp [hk]

example : ∃ l s', openDisks devOs {} 0 [{ dsk "syscall" with deleteOnExit := true }, { dsk "mmap" with deleteOnExit := true }]
      { ev := [], disk := {}, cfg := { disks := [{ dsk "syscall" with deleteOnExit := true }, { dsk "mmap" with deleteOnExit := true }], firstFlash := 2, isInit := true, maxDev := 0 } } = (.ok l, s') ∧
    s'.cfg.disks.map (·.deleteOnExit) = [false, true] := ⟨_, _, rfl, rfl⟩

/-! ### C86: lock files -/

/-- The property fails with NO_LOCK: the lock file of another process is overwritten and removed. -/
theorem C86_false : ∃ (s' : St), createFile lockedOs {} { rdwr := true, creat := true, noLock := true } 0 (st0 (dsk "fileperblock_syscall")) = (.throws .ioError, s') ∧
    Ev.write true ∈ s'.ev ∧ ∃ x ∈ s'.ev, x.removes (Files.lockName "d".toList) = true :=
  ⟨_, rfl, by decide, .remove (Files.lockName "d".toList) true, by decide, by decide⟩

/-- It also fails if direct I/O is demanded and the build does not have it. -/
theorem C86_false_direct : ∃ (s' : St), createFile lockedOs { directOff := true } mgrMode 0 (st0 { dsk "fileperblock_syscall" with direct := .on }) = (.throws .ioError, s') ∧
    ∃ x ∈ s'.ev, x.removes (Files.lockName "d".toList) = true :=
  ⟨_, rfl, .remove (Files.lockName "d".toList) true, by decide, by decide⟩

/-- What holds: otherwise, if the lock is not granted, `create_file` throws and leaves the file alone
(unless the mode demands truncation); this is also true of the implementations with one file. -/
theorem C86_partial {os : Os} {b : Build} {m : Mode} {a : Int} {s s' : St} {r : Out FileObj} (h : createFile os b m a s = (r, s'))
    (hos : ∀ hist x, os.setlk hist x = false) (hn : m.noLock = false) (ht : m.trunc = false) (hb : b.directOff = false ∨ s.disk.direct ≠ .on)
    (hk : kindOf b s.disk.ioImpl ≠ some .memory) :
    (∀ o, r ≠ .ok o) ∧ (∀ e, r = .throws e → ∃ l, s'.ev = s.ev ++ l ∧ ∀ x ∈ l, x.touches = false) := by
  have hnl : (applyDirect s.disk.direct m).noLock = false := by unfold applyDirect; split <;> exact hn
  have htr : (applyDirect s.disk.direct m).trunc = false := by unfold applyDirect; split <;> exact ht
  have hfd : ∀ {path : Str} {f : Ufs} {s1 s2 : St}, construct os b path (applyDirect s.disk.direct m) s1 = (.ok f, s2) → False := by
    intro path f s1 s2 hc
    rcases construct_locked hnl hc with h1 | ⟨hist, h1⟩
    · rcases (construct_ok hc).2.2 with h2 | h2 | h2
      · rcases hb with hb | hb
        · rw [hb] at h2; cases h2.1
        · have := h2.2.1
          unfold applyDirect at this
          split at this
          · cases this
          · cases this
          · rename_i e; exact hb e
      · rw [h2.2.2.1] at h1; cases h1
      · rw [h2.2.2.2.2.1] at h1; cases h1
    · rw [hos] at h1; cases h1
  constructor
  · rintro o rfl
    obtain ⟨k, hk', h1, _⟩ := createFile_ok h
    rcases openKind_ok h1 with ⟨h2, _⟩ | ⟨_, f, s1, l, r, _, h3, _⟩
    · rw [h2] at hk'; exact hk hk'
    · exact hfd h3
  · rintro e rfl
    rcases createFile_throw h with ⟨_, _, h1⟩ | ⟨_, k, hk', h1⟩
    · exact ⟨[], by rw [h1]; simp [setId], by simp⟩
    · have hev : (setQueue k (setId s)).ev = s.ev := by rw [(setQueue_fields k _).1]; rfl
      have key : ∀ {path : Str}, construct os b path (applyDirect s.disk.direct m) (setQueue k (setId s)) = (.throws e, s') →
          ∃ l, s'.ev = s.ev ++ l ∧ ∀ x ∈ l, x.touches = false := by
        intro path hc
        obtain ⟨_, fl, h2⟩ := construct_throw' hc
        rw [hev] at h2
        obtain ⟨l, h3, h4⟩ := h2
        refine ⟨l, h3, ?_⟩
        intro x hx
        exact h4 htr x hx
      have hU : ∀ {c : Bool}, M.bind (openUfs os b (applyDirect s.disk.direct m) c) (fun f => M.pure (some f)) (setQueue k (setId s)) = (.throws e, s') →
          ∃ l, s'.ev = s.ev ++ l ∧ ∀ x ∈ l, x.touches = false := by
        intro c hx
        simp only [bind_throw, pure_throw, and_false, exists_false, or_false] at hx
        unfold openUfs at hx
        rw [bind_throw] at hx
        rcases hx with hx | ⟨f, s1, hx, _⟩
        · exact key hx
        · exact (hfd hx).elim
      have hF : M.bind (openFpb os b (applyDirect s.disk.direct m)) (fun f => M.pure (some f)) (setQueue k (setId s)) = (.throws e, s') →
          ∃ l, s'.ev = s.ev ++ l ∧ ∀ x ∈ l, x.touches = false := by
        intro hx
        simp only [bind_throw, pure_throw, and_false, exists_false, or_false] at hx
        unfold openFpb at hx
        rw [bind_throw] at hx
        rcases hx with hx | ⟨f, s1, hx, _⟩
        · exact key hx
        · exact (hfd hx).elim
      cases k with
      | syscall => exact hU h1
      | linuxaio => exact hU h1
      | mmap => exact hU h1
      | fpbSyscall => exact hF h1
      | fpbMmap => exact hF h1
      | memory => cases h1

/-- The lock file has the name of the disk with an ending, and is closed and removed when the file is
destroyed. -/
theorem C86_removed {os os' : Os} {b : Build} {m : Mode} {a : Int} {s s' t t' : St} {o : FileObj} {f : Ufs} {u : Unit}
    (h : createFile os b m a s = (.ok o, s')) (hk : o.kind.perBlock = true) (hf : o.ufs = some f) (hd : f.isDevice = false)
    (h' : destroyObj os' o t = (.ok u, t')) :
    f.path = Files.lockName s.disk.path ∧ ∃ ok, t'.ev = t.ev ++ [.close true, .remove (Files.lockName s.disk.path) ok] := by
  obtain ⟨k, hk', h1, h0⟩ := createFile_ok h
  have hkk : o.kind = k := by rw [h0]
  have e1 : (setQueue k (setId s)).disk.path = s.disk.path := by rw [(setQueue_fields k _).2.2]; rfl
  have hp : f.path = Files.lockName s.disk.path ∧ f.fd.isSome := by
    rcases openKind_ok h1 with ⟨_, h2, _⟩ | ⟨_, f', s1, l, r, h2, h3, h4, _⟩
    · rw [h2] at hf; cases hf
    · rw [h2] at hf; cases hf
      refine ⟨?_, h4⟩
      rw [(construct_ok h3).1, e1]
      rw [hkk] at hk
      cases k <;> first | rfl | cases hk
  refine ⟨hp.1, ?_⟩
  have hx : M.bind (closeRemove os' f) (fun f' => destroy os' f') t = (.ok u, t') := by
    unfold destroyObj at h'
    rw [hf] at h'
    cases hko : o.kind <;> rw [hko] at h' hk <;> first | exact h' | cases hk
  obtain ⟨ok, h2⟩ := destroyFpb_ok hx
  refine ⟨ok, ?_⟩
  rw [h2, hp.2, hd, hp.1]; rfl

example : ∃ s' o, createFile okOs {} mgrMode 0 (st0 (dsk "fileperblock_mmap")) = (.ok o, s') ∧ o.kind.perBlock = true ∧
    (destroyObj okOs o s').2.ev = s'.ev ++ [.close true, .remove "d_fpb_lock".toList true] := ⟨_, _, rfl, rfl, rfl⟩
example : ∃ s', createFile lockedOs {} mgrMode 0 (st0 (dsk "fileperblock_mmap")) = (.throws .ioError, s') := ⟨_, rfl⟩

end Foxxll.Open
