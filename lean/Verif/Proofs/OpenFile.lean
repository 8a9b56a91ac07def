import Verif.Spec.OpenFile
/-
Lemmas about opening files.
-/
set_option linter.unusedSimpArgs false
namespace Foxxll.Open
open Foxxll.Config (Str Disk Direct Cfg)

theorem live_append (l r : List Ev) : live (l ++ r) = live l + live r := by
  induction l with
  | nil => simp [live]
  | cons e l ih => simp only [List.cons_append, live, ih]; omega

/-! ### Sequencing -/

theorem bind_ok {α β : Type} {x : M α} {f : α → M β} {s s' : St} {b : β} :
    M.bind x f s = (.ok b, s') ↔ ∃ a s1, x s = (.ok a, s1) ∧ f a s1 = (.ok b, s') := by
  unfold M.bind
  constructor
  · intro h
    generalize hx : x s = r at h
    obtain ⟨o, s1⟩ := r
    cases o with
    | ok a => exact ⟨a, s1, rfl, h⟩
    | throws e => cases h
    | terminate => cases h
    | ub => cases h
  · rintro ⟨a, s1, h, h'⟩
    rw [h]; exact h'

theorem bind_throw {α β : Type} {x : M α} {f : α → M β} {s s' : St} {e : Exc} :
    M.bind x f s = (.throws e, s') ↔
      x s = (.throws e, s') ∨ ∃ a s1, x s = (.ok a, s1) ∧ f a s1 = (.throws e, s') := by
  unfold M.bind
  constructor
  · intro h
    generalize hx : x s = r at h
    obtain ⟨o, s1⟩ := r
    cases o with
    | ok a => exact .inr ⟨a, s1, rfl, h⟩
    | throws e => cases h; exact .inl rfl
    | terminate => cases h
    | ub => cases h
  · rintro (h | ⟨a, s1, h, h'⟩)
    · rw [h]
    · rw [h]; exact h'

theorem guard_ok {α : Type} {d : M Unit} {x : M α} {s s' : St} {a : α} :
    M.guard d x s = (.ok a, s') ↔ x s = (.ok a, s') := by
  unfold M.guard
  constructor
  · intro h
    generalize hx : x s = r at h
    obtain ⟨o, s1⟩ := r
    cases o with
    | ok a => exact h
    | throws e =>
      simp only at h
      generalize hd : d s1 = q at h
      obtain ⟨o2, s2⟩ := q
      cases o2 <;> cases h
    | terminate => cases h
    | ub => cases h
  · intro h; rw [h]

theorem guard_throw {α : Type} {d : M Unit} {x : M α} {s s' : St} {e : Exc} :
    M.guard d x s = (.throws e, s') ↔ ∃ s1, x s = (.throws e, s1) ∧ d s1 = (.ok (), s') := by
  unfold M.guard
  constructor
  · intro h
    generalize hx : x s = r at h
    obtain ⟨o, s1⟩ := r
    cases o with
    | ok a => cases h
    | throws e' =>
      simp only at h
      generalize hd : d s1 = q at h
      obtain ⟨o2, s2⟩ := q
      cases o2 with
      | ok u => cases u; cases h; exact ⟨s1, rfl, hd⟩
      | throws _ => cases h
      | terminate => cases h
      | ub => cases h
    | terminate => cases h
    | ub => cases h
  · rintro ⟨s1, h, h'⟩
    rw [h]; simp only [h']

theorem pure_ok {α : Type} {a b : α} {s s' : St} : M.pure a s = (.ok b, s') ↔ a = b ∧ s = s' := by
  unfold M.pure
  constructor
  · intro h; cases h; exact ⟨rfl, rfl⟩
  · rintro ⟨rfl, rfl⟩; rfl

theorem pure_throw {α : Type} {a : α} {s s' : St} {e : Exc} : M.pure a s = (.throws e, s') ↔ False := by
  unfold M.pure
  constructor
  · intro h; cases h
  · intro h; cases h

/-- Only calls are added. -/
def Adds (s s' : St) (l : List Ev) : Prop := s' = { s with ev := s.ev ++ l }

theorem Adds.nil (s : St) : Adds s s [] := by unfold Adds; cases s; simp

theorem Adds.trans {a b c : St} {l r : List Ev} (h : Adds a b l) (h' : Adds b c r) : Adds a c (l ++ r) := by
  unfold Adds at *; subst h; subst h'; simp

theorem note_ok {e : Ev} {s s' : St} {u : Unit} : note e s = (.ok u, s') ↔ Adds s s' [e] := by
  unfold note Adds
  constructor
  · intro h; cases h; rfl
  · intro h; rw [h]

theorem note_throw {e : Ev} {s s' : St} {x : Exc} : note e s = (.throws x, s') ↔ False := by
  unfold note
  constructor
  · intro h; cases h
  · intro h; cases h

theorem call_ok {e : Ev} {ok : Bool} {s s' : St} {u : Unit} :
    call e ok s = (.ok u, s') ↔ ok = true ∧ Adds s s' [e] := by
  unfold call Adds
  cases ok with
  | true => constructor
            · intro h; cases h; exact ⟨rfl, rfl⟩
            · rintro ⟨_, h⟩; rw [h]; rfl
  | false => constructor
             · intro h; cases h
             · rintro ⟨h, _⟩; cases h

theorem call_throw {e : Ev} {ok : Bool} {s s' : St} {x : Exc} :
    call e ok s = (.throws x, s') ↔ ok = false ∧ x = .ioError ∧ Adds s s' [e] := by
  unfold call Adds
  cases ok with
  | true => constructor
            · intro h; cases h
            · rintro ⟨h, _⟩; cases h
  | false => constructor
             · intro h; cases h; exact ⟨rfl, rfl, rfl⟩
             · rintro ⟨_, h, h'⟩; rw [h, h']; rfl

/-! ### Primitives -/

theorem lock_ok {os : Os} {f : Ufs} {s s' : St} {u : Unit} (h : lock os f s = (.ok u, s')) :
    Adds s s' [.setlk (!f.mode.rdonly) true] ∧ f.fd.isSome := by
  unfold lock at h
  cases hf : f.fd with
  | none => rw [hf] at h; simp only [call_ok] at h; exact absurd h.1 (by decide)
  | some fl =>
    rw [hf] at h; simp only [call_ok] at h
    rw [h.1] at h; exact ⟨h.2, rfl⟩

theorem lock_throw {os : Os} {f : Ufs} {s s' : St} {e : Exc} (h : lock os f s = (.throws e, s')) :
    e = .ioError ∧ ((f.fd = none ∧ Adds s s' [.badFd]) ∨ (f.fd.isSome ∧ Adds s s' [.setlk (!f.mode.rdonly) false])) := by
  unfold lock at h
  cases hf : f.fd with
  | none => rw [hf] at h; simp only [call_throw] at h; exact ⟨h.2.1, .inl ⟨rfl, h.2.2⟩⟩
  | some fl =>
    rw [hf] at h; simp only [call_throw] at h
    rw [h.1] at h; exact ⟨h.2.1, .inr ⟨rfl, h.2.2⟩⟩

/-- Calls of a successful `_after_open`. -/
def initEvs (m : Mode) : List Ev := .fstat true :: if m.noLock then [] else [.setlk (!m.rdonly) true]

theorem afterOpen_ok {os : Os} {f f' : Ufs} {s s' : St} (h : afterOpen os f s = (.ok f', s')) :
    Adds s s' (initEvs f.mode) ∧ ∃ d, os.fstat s.ev = some d ∧ f' = { f with isDevice := d } := by
  unfold afterOpen at h
  cases hf : os.fstat s.ev with
  | none => rw [hf] at h; simp [bind_ok, call_ok] at h
  | some d =>
    rw [hf] at h
    simp only [bind_ok, note_ok] at h
    obtain ⟨_, s1, h1, h2⟩ := h
    cases hl : f.mode.noLock with
    | true =>
      rw [hl] at h2; simp only [if_true, pure_ok] at h2
      refine ⟨?_, d, rfl, h2.1.symm⟩
      simp only [initEvs, hl, if_true]; rw [← h2.2]; exact h1
    | false =>
      rw [hl] at h2
      simp only [Bool.false_eq_true, if_false, bind_ok, pure_ok] at h2
      obtain ⟨_, s2, h3, h4, h5⟩ := h2
      refine ⟨?_, d, rfl, h4.symm⟩
      simp only [initEvs, hl, Bool.false_eq_true, if_false]
      rw [← h5]; exact h1.trans (lock_ok h3).1

theorem afterOpen_throw {os : Os} {f : Ufs} {s s' : St} {e : Exc} (hfd : f.fd.isSome)
    (h : afterOpen os f s = (.throws e, s')) :
    e = .ioError ∧ (Adds s s' [.fstat false] ∨ (f.mode.noLock = false ∧ Adds s s' [.fstat true, .setlk (!f.mode.rdonly) false])) := by
  unfold afterOpen at h
  cases hf : os.fstat s.ev with
  | none =>
    rw [hf] at h; simp only [bind_throw, call_throw, pure_throw, call_ok] at h
    rcases h with h | ⟨_, _, h, _⟩
    · exact ⟨h.2.1, .inl h.2.2⟩
    · exact absurd h.1 (by decide)
  | some d =>
    rw [hf] at h
    simp only [bind_throw, note_throw, note_ok, false_or] at h
    obtain ⟨_, s1, h1, h2⟩ := h
    cases hl : f.mode.noLock with
    | true => rw [hl] at h2; simp [pure_throw] at h2
    | false =>
      rw [hl] at h2
      simp only [Bool.false_eq_true, if_false, bind_throw, pure_throw, and_false, exists_false, or_false] at h2
      have h3 := lock_throw h2
      refine ⟨h3.1, .inr ⟨rfl, ?_⟩⟩
      rcases h3.2 with h4 | h4
      · simp only at h4; rw [h4.1] at hfd; cases hfd
      · exact h1.trans h4.2

/-- The three ways in which the constructor succeeds. -/
theorem construct_ok {os : Os} {b : Build} {path : Str} {m : Mode} {s s' : St} {f : Ufs}
    (h : construct os b path m s = (.ok f, s')) :
    f.path = path ∧ f.mode = m ∧
    ((b.directOff = true ∧ m.requireDirect = true ∧ s' = s ∧ f.fd = none ∧ f.needAlign = false) ∨
     (¬ (b.directOff = true ∧ m.requireDirect = true) ∧ os.opened s.ev path (flagsOf b m) = .ok ∧
        f.fd = some (flagsOf b m) ∧ f.needAlign = m.direct ∧ Adds s s' (.open path (flagsOf b m) true :: initEvs m)
        ∧ os.fstat (s.ev ++ [.open path (flagsOf b m) true]) = some f.isDevice) ∨
     (b.directOff = false ∧ m.direct = true ∧ m.requireDirect = false ∧ os.opened s.ev path (flagsOf b m) = .einval ∧
        f.fd = some { flagsOf b m with direct := false } ∧ f.needAlign = false ∧
        Adds s s' (.open path (flagsOf b m) false :: .open path { flagsOf b m with direct := false } true :: initEvs m)
        ∧ os.fstat (s.ev ++ [.open path (flagsOf b m) false, .open path { flagsOf b m with direct := false } true]) = some f.isDevice)) := by
  unfold construct at h
  simp only at h
  split at h
  · rename_i hc
    simp only [Bool.and_eq_true] at hc
    cases h
    exact ⟨rfl, rfl, .inl ⟨hc.1, hc.2, rfl, rfl, rfl⟩⟩
  · rename_i hc
    simp only [Bool.and_eq_true] at hc
    cases ho : os.opened s.ev path (flagsOf b m) with
    | ok =>
      rw [ho] at h
      simp only [bind_ok, note_ok] at h
      obtain ⟨_, s1, h1, h2⟩ := h
      obtain ⟨h3, d, h4, rfl⟩ := afterOpen_ok h2
      refine ⟨rfl, rfl, .inr (.inl ⟨hc, rfl, rfl, rfl, h1.trans h3, ?_⟩)⟩
      unfold Adds at h1; subst h1; exact h4
    | einval =>
      rw [ho] at h
      simp only at h
      split at h
      · rename_i hd
        simp only [Bool.and_eq_true, Bool.not_eq_true', decide_eq_true_eq, and_true] at hd
        simp only [bind_ok, note_ok] at h
        obtain ⟨_, s1, h1, h2⟩ := h
        split at h2
        · simp only [bind_ok, note_ok] at h2
          obtain ⟨_, s2, h3, h4⟩ := h2
          obtain ⟨h5, d, h6, rfl⟩ := afterOpen_ok h4
          refine ⟨rfl, rfl, .inr (.inr ⟨hd.1.1, hd.1.2, hd.2, rfl, rfl, rfl, (h1.trans h3).trans h5, ?_⟩)⟩
          unfold Adds at h1 h3; subst h1; subst h3
          simpa using h6
        · simp only [bind_ok, note_ok] at h2
          obtain ⟨_, s2, _, h4⟩ := h2
          cases h4
      · simp only [bind_ok, note_ok] at h
        obtain ⟨_, s2, _, h4⟩ := h
        cases h4
    | other =>
      rw [ho] at h
      simp only [reduceCtorEq, decide_false, Bool.and_false, Bool.false_eq_true, if_false, bind_ok, note_ok] at h
      obtain ⟨_, s2, _, h4⟩ := h
      cases h4

/-- The ways in which it throws: no descriptor was opened, or `_after_open` failed. -/
theorem construct_throw {os : Os} {b : Build} {path : Str} {m : Mode} {s s' : St} {e : Exc}
    (h : construct os b path m s = (.throws e, s')) :
    e = .ioError ∧ ∃ fl, Adds s s' [.open path fl false] ∨
      (∃ fl', Adds s s' [.open path fl false, .open path fl' false]) ∨
      (∃ pre x, (pre = [] ∨ pre = [.open path (flagsOf b m) false]) ∧
        (x = [.fstat false] ∨ (m.noLock = false ∧ x = [.fstat true, .setlk (!m.rdonly) false])) ∧
        Adds s s' (pre ++ .open path fl true :: x)) := by
  unfold construct at h
  simp only at h
  split at h
  · cases h
  · cases ho : os.opened s.ev path (flagsOf b m) with
    | ok =>
      rw [ho] at h
      simp only [bind_throw, note_ok, note_throw, false_or] at h
      obtain ⟨_, s1, h1, h2⟩ := h
      obtain ⟨h3, h4⟩ := afterOpen_throw rfl h2
      refine ⟨h3, flagsOf b m, .inr (.inr ?_)⟩
      rcases h4 with h4 | ⟨h5, h4⟩
      · exact ⟨[], _, .inl rfl, .inl rfl, h1.trans h4⟩
      · exact ⟨[], _, .inl rfl, .inr ⟨h5, rfl⟩, h1.trans h4⟩
    | einval =>
      rw [ho] at h
      simp only at h
      split at h
      · simp only [bind_throw, note_ok, note_throw, false_or] at h
        obtain ⟨_, s1, h1, h2⟩ := h
        split at h2
        · simp only [bind_throw, note_ok, note_throw, false_or] at h2
          obtain ⟨_, s2, h3, h4⟩ := h2
          obtain ⟨h5, h6⟩ := afterOpen_throw rfl h4
          refine ⟨h5, { flagsOf b m with direct := false }, .inr (.inr ?_)⟩
          rcases h6 with h6 | ⟨h7, h6⟩
          · exact ⟨_, _, .inr rfl, .inl rfl, (h1.trans h3).trans h6⟩
          · exact ⟨_, _, .inr rfl, .inr ⟨h7, rfl⟩, (h1.trans h3).trans h6⟩
        · simp only [bind_throw, note_ok, note_throw, false_or] at h2
          obtain ⟨_, s2, h3, h4⟩ := h2
          unfold M.throw at h4; cases h4
          exact ⟨rfl, _, .inr (.inl ⟨_, h1.trans h3⟩)⟩
      · simp only [bind_throw, note_ok, note_throw, false_or] at h
        obtain ⟨_, s2, h3, h4⟩ := h
        unfold M.throw at h4; cases h4
        exact ⟨rfl, _, .inl h3⟩
    | other =>
      rw [ho] at h
      simp only [reduceCtorEq, decide_false, Bool.and_false, Bool.false_eq_true, if_false, bind_throw, note_ok, note_throw, false_or] at h
      obtain ⟨_, s2, h3, h4⟩ := h
      unfold M.throw at h4; cases h4
      exact ⟨rfl, _, .inl h3⟩

theorem destroy_ok {os : Os} {f : Ufs} {s s' : St} {u : Unit} (h : destroy os f s = (.ok u, s')) :
    Adds s s' (if f.fd.isSome then [.close true] else []) := by
  unfold destroy close at h
  simp only [bind_ok, pure_ok] at h
  obtain ⟨f', s1, h1, _, rfl⟩ := h
  cases hf : f.fd with
  | none => rw [hf] at h1; cases h1; exact Adds.nil _
  | some fl =>
    rw [hf] at h1
    simp only [bind_ok, call_ok, pure_ok] at h1
    obtain ⟨_, s2, ⟨h2, h3⟩, _, rfl⟩ := h1
    rw [h2] at h3; exact h3

/-! ### After the construction -/

/-- Neither opens nor closes a descriptor. -/
def Ev.quiet : Ev → Bool
  | .open _ _ _ => false
  | .close _ => false
  | _ => true

theorem live_quiet {l : List Ev} (h : ∀ e ∈ l, e.quiet = true) : live l = 0 := by
  induction l with
  | nil => rfl
  | cons e l ih =>
    have h1 := h e (by simp)
    have h2 := ih (fun x hx => h x (by simp [hx]))
    simp only [live, h2]
    cases e <;> simp_all [Ev.quiet, Ev.delta]

theorem size_ok {os : Os} {f : Ufs} {s s' : St} {n : Nat} (h : size os f s = (.ok n, s')) :
    Adds s s' [.lseek true] ∧ f.fd.isSome ∧ os.lseekEnd s.ev = some n := by
  unfold size at h
  cases hf : f.fd with
  | none => rw [hf] at h; simp [bind_ok, call_ok] at h
  | some fl =>
    rw [hf] at h; simp only at h
    cases hl : os.lseekEnd s.ev with
    | none => rw [hl] at h; simp [bind_ok, call_ok] at h
    | some k =>
      rw [hl] at h; simp only [bind_ok, note_ok, pure_ok] at h
      obtain ⟨_, s1, h1, rfl, rfl⟩ := h
      exact ⟨h1, rfl, rfl⟩

theorem size_throw {os : Os} {f : Ufs} {s s' : St} {e : Exc} (h : size os f s = (.throws e, s')) :
    e = .ioError ∧ ((f.fd = none ∧ Adds s s' [.badFd]) ∨ Adds s s' [.lseek false]) := by
  unfold size at h
  cases hf : f.fd with
  | none =>
    rw [hf] at h; simp only [bind_throw, call_throw, call_ok, pure_throw, and_false, exists_false, or_false] at h
    exact ⟨h.2.1, .inl ⟨rfl, h.2.2⟩⟩
  | some fl =>
    rw [hf] at h; simp only at h
    cases hl : os.lseekEnd s.ev with
    | none =>
      rw [hl] at h; simp only [bind_throw, call_throw, call_ok, pure_throw, and_false, exists_false, or_false] at h
      exact ⟨h.2.1, .inr h.2.2⟩
    | some k => rw [hl] at h; simp [bind_throw, note_throw, pure_throw] at h

theorem unlink_ok {os : Os} {f : Ufs} {s s' : St} {u : Unit} (h : unlink os f s = (.ok u, s')) :
    Adds s s' (if f.isDevice then [] else [.unlink f.path true]) := by
  unfold unlink at h
  split at h
  · rename_i hd; cases h; rw [hd]; exact Adds.nil _
  · rename_i hd; simp only [call_ok] at h
    have hd' : f.isDevice = false := by simpa using hd
    rw [h.1] at h; rw [hd']; exact h.2

theorem unlink_throw {os : Os} {f : Ufs} {s s' : St} {e : Exc} (h : unlink os f s = (.throws e, s')) :
    e = .ioError ∧ f.isDevice = false ∧ Adds s s' [.unlink f.path false] := by
  unfold unlink at h
  split at h
  · cases h
  · rename_i hd; simp only [call_throw] at h
    rw [h.1] at h; exact ⟨h.2.1, by simpa using hd, h.2.2⟩

theorem checkDevice_ok {os : Os} {f : Ufs} {s s' : St} {u : Unit} (h : checkDevice os f s = (.ok u, s')) :
    (f.isDevice = false ∧ s.disk.rawDevice = false ∧ s' = s) ∨
    (f.isDevice = true ∧ ∃ n, os.lseekEnd s.ev = some n ∧ s' = { s with ev := s.ev ++ [.lseek true], disk := asDevice s.disk n }) := by
  unfold checkDevice at h
  split at h
  · cases h
  · rename_i h1
    split at h
    · rename_i h2
      simp only [bind_ok] at h
      obtain ⟨n, s1, h3, h4⟩ := h
      have h5 := size_ok h3
      cases h4
      refine .inr ⟨h2, n, h5.2.2, ?_⟩
      rw [h5.1]
    · rename_i h2
      cases h
      simp_all

theorem checkDevice_throw {os : Os} {f : Ufs} {s s' : St} {e : Exc} (h : checkDevice os f s = (.throws e, s')) :
    e = .ioError ∧ ((s.disk.rawDevice = true ∧ f.isDevice = false ∧ s' = s) ∨
      (f.isDevice = true ∧ (Adds s s' [.lseek false] ∨ (f.fd = none ∧ Adds s s' [.badFd])))) := by
  unfold checkDevice at h
  split at h
  · rename_i h1; cases h; exact ⟨rfl, .inl (by simpa using h1)⟩
  · split at h
    · rename_i h2
      simp only [bind_throw] at h
      rcases h with h | ⟨_, _, _, h⟩
      · have h3 := size_throw h
        refine ⟨h3.1, .inr ⟨h2, ?_⟩⟩
        rcases h3.2 with h4 | h4
        · exact .inr h4
        · exact .inl h4
      · cases h
    · cases h

theorem unlinkIf_ok {os : Os} {f : Ufs} {s s' : St} {u : Unit} (h : unlinkIf os f s = (.ok u, s')) :
    Adds s s' (if s.disk.unlinkOnOpen && !f.isDevice then [.unlink f.path true] else []) := by
  unfold unlinkIf at h
  split at h
  · rename_i h1; have := unlink_ok h; rw [h1]; cases hd : f.isDevice <;> simpa [hd] using this
  · rename_i h1
    have h1' : s.disk.unlinkOnOpen = false := by simpa using h1
    cases h; rw [h1']; exact Adds.nil _

theorem unlinkIf_throw {os : Os} {f : Ufs} {s s' : St} {e : Exc} (h : unlinkIf os f s = (.throws e, s')) :
    e = .ioError ∧ s.disk.unlinkOnOpen = true ∧ f.isDevice = false ∧ Adds s s' [.unlink f.path false] := by
  unfold unlinkIf at h
  split at h
  · rename_i h1; have h2 := unlink_throw h; exact ⟨h2.1, h1, h2.2⟩
  · cases h

/-- A successful `openUfs`: the calls of the constructor, the lock, then only quiet calls. -/
theorem openUfs_ok {os : Os} {b : Build} {m : Mode} {check : Bool} {s s' : St} {f : Ufs}
    (h : openUfs os b m check s = (.ok f, s')) :
    ∃ s1, construct os b s.disk.path m s = (.ok f, s1) ∧ f.fd.isSome ∧
      (((check = false ∨ f.isDevice = false) ∧ (check = true → s.disk.rawDevice = false) ∧ s'.disk = s.disk ∧ s'.cfg = s.cfg ∧
          s'.ev = s1.ev ++ .setlk (!m.rdonly) true :: (if s.disk.unlinkOnOpen && !f.isDevice then [.unlink s.disk.path true] else [])) ∨
       (check = true ∧ f.isDevice = true ∧ s'.cfg = s.cfg ∧ s'.ev = s1.ev ++ [.setlk (!m.rdonly) true, .lseek true] ∧
          ∃ n, os.lseekEnd (s1.ev ++ [.setlk (!m.rdonly) true]) = some n ∧ s'.disk = asDevice s.disk n)) := by
  unfold openUfs at h
  simp only [bind_ok, guard_ok] at h
  obtain ⟨f', s1, hc, _, s2, hl, _, s3, hk, _, s4, hu, hp⟩ := h
  rw [pure_ok] at hp
  obtain ⟨rfl, rfl⟩ := hp
  have hcs := construct_ok hc
  have hl' := lock_ok hl
  have hs1 : s1.disk = s.disk ∧ s1.cfg = s.cfg := by
    rcases hcs.2.2 with h | h | h
    · rw [h.2.2.1]; exact ⟨rfl, rfl⟩
    · have := h.2.2.2.2.1; rw [this]; exact ⟨rfl, rfl⟩
    · have := h.2.2.2.2.2.2.1; rw [this]; exact ⟨rfl, rfl⟩
  refine ⟨s1, hc, hl'.2, ?_⟩
  have hu' := unlinkIf_ok hu
  rw [hcs.2.1] at hl'
  rw [hcs.1] at hu'
  cases check with
  | false =>
    simp only [Bool.false_eq_true, if_false, pure_ok] at hk
    obtain ⟨_, rfl⟩ := hk
    refine .inl ⟨.inl rfl, (fun h => nomatch h), ?_⟩
    rw [hl'.1] at hu'; rw [hu']
    refine ⟨hs1.1, hs1.2, ?_⟩
    simp [hs1.1]
  | true =>
    simp only [if_true] at hk
    rcases checkDevice_ok hk with ⟨h1, h2, rfl⟩ | ⟨h1, n, h2, h3⟩
    · refine .inl ⟨.inr h1, ?_, ?_⟩
      · intro _; rw [hl'.1] at h2; rw [← hs1.1]; exact h2
      · rw [hl'.1] at hu'; rw [hu']
        refine ⟨hs1.1, hs1.2, ?_⟩
        simp [hs1.1]
    · refine .inr ⟨rfl, h1, ?_⟩
      rw [hl'.1] at h3 h2
      rw [h3, h1] at hu'
      simp only [Bool.not_true, Bool.and_false, Bool.false_eq_true, if_false] at hu'
      rw [hu']
      refine ⟨hs1.2, ?_, n, h2, ?_⟩
      · simp
      · simp [hs1.1]

/-- A failed `openUfs`: the constructor failed, or the descriptor (if any) was closed. -/
theorem openUfs_throw {os : Os} {b : Build} {m : Mode} {check : Bool} {s s' : St} {e : Exc}
    (h : openUfs os b m check s = (.throws e, s')) :
    e = .ioError ∧ (construct os b s.disk.path m s = (.throws e, s') ∨
      ∃ f s1 l, construct os b s.disk.path m s = (.ok f, s1) ∧ (∀ x ∈ l, x.quiet = true ∧ x ≠ .unlink s.disk.path true) ∧
        (f.fd = none → l = [.badFd]) ∧
        s'.ev = s1.ev ++ l ++ (if f.fd.isSome then [.close true] else [])) := by
  unfold openUfs at h
  simp only [bind_throw] at h
  rcases h with h | ⟨f, s1, hc, hg⟩
  · exact ⟨(construct_throw h).1, .inl h⟩
  · rw [guard_throw] at hg
    obtain ⟨s2, hx, hd⟩ := hg
    have hd' := destroy_ok hd
    suffices hs : e = .ioError ∧ ∃ l, s2.ev = s1.ev ++ l ∧ (∀ x ∈ l, x.quiet = true ∧ x ≠ .unlink s.disk.path true) ∧ (f.fd = none → l = [.badFd]) by
      obtain ⟨h0, l, h1, h2, h3⟩ := hs
      refine ⟨h0, .inr ⟨f, s1, l, hc, h2, h3, ?_⟩⟩
      rw [hd', h1]
    simp only [bind_throw] at hx
    rcases hx with hx | ⟨_, s3, hl, hx⟩
    · have h1 := lock_throw hx
      refine ⟨h1.1, ?_⟩
      rcases h1.2 with ⟨h2, h3⟩ | ⟨h2, h3⟩
      · exact ⟨_, by rw [h3], by simp [Ev.quiet], fun _ => rfl⟩
      · exact ⟨_, by rw [h3], by simp [Ev.quiet], fun h => by rw [h] at h2; cases h2⟩
    · have hl' := lock_ok hl
      have hne : f.fd ≠ none := fun h => by rw [h] at hl'; cases hl'.2
      rcases hx with hx | ⟨_, s4, hk, hx⟩
      · cases check with
        | false => simp [pure_throw] at hx
        | true =>
          simp only [if_true] at hx
          have h1 := checkDevice_throw hx
          refine ⟨h1.1, ?_⟩
          rcases h1.2 with ⟨_, _, h2⟩ | ⟨_, h2 | ⟨h2, _⟩⟩
          · refine ⟨_, by rw [h2, hl'.1], by simp [Ev.quiet], fun h => absurd h hne⟩
          · refine ⟨_, by rw [h2, hl'.1]; simp only [List.append_assoc]; rfl, by simp [Ev.quiet], fun h => absurd h hne⟩
          · exact absurd h2 hne
      · simp only [pure_throw, and_false, exists_false, or_false] at hx
        have h1 := unlinkIf_throw hx
        refine ⟨h1.1, ?_⟩
        have hk' : ∃ l, s4.ev = s1.ev ++ .setlk (!f.mode.rdonly) true :: l ∧ (∀ x ∈ l, x.quiet = true ∧ x ≠ .unlink s.disk.path true) := by
          cases check with
          | false =>
            simp only [Bool.false_eq_true, if_false, pure_ok] at hk
            rw [← hk.2, hl'.1]; exact ⟨[], rfl, by simp⟩
          | true =>
            simp only [if_true] at hk
            rcases checkDevice_ok hk with ⟨_, _, h2⟩ | ⟨_, n, _, h2⟩
            · rw [h2, hl'.1]; exact ⟨[], rfl, by simp⟩
            · rw [h2, hl'.1]; exact ⟨[.lseek true], by simp, by simp [Ev.quiet]⟩
        obtain ⟨l, h2, h3⟩ := hk'
        refine ⟨.setlk (!f.mode.rdonly) true :: l ++ [.unlink f.path false], ?_, ?_, fun h => absurd h hne⟩
        · rw [h1.2.2.2, h2]; simp
        · intro x hx
          simp only [List.cons_append, List.mem_cons, List.mem_append, List.mem_singleton, List.not_mem_nil, or_false] at hx
          rcases hx with rfl | hx | rfl
          · simp [Ev.quiet]
          · exact h3 x hx
          · simp [Ev.quiet]

/-! ### File per block -/

/-- Calls that `set_size` and the write of the lock page may make. -/
def Ev.sizing (dev : Bool) : Ev → Bool
  | .lseek _ => true
  | .write _ => true
  | .ftruncate _ => !dev
  | .setlk _ _ => true
  | .badFd => true
  | _ => false

theorem sizing_quiet {d : Bool} {e : Ev} (h : e.sizing d = true) : e.quiet = true := by
  cases e <;> simp_all [Ev.sizing, Ev.quiet]

theorem setSize_end {os : Os} {f : Ufs} {n : Nat} {s s' : St} {o : Out Unit} (h : setSize os f n s = (o, s'))
    (ho : (∃ u, o = .ok u) ∨ ∃ e, o = .throws e) :
    ∃ l, Adds s s' l ∧ (∀ x ∈ l, x.sizing f.isDevice = true) ∧ (∀ e, o = .throws e → e = .ioError) ∧ ((∃ u, o = .ok u) → f.fd.isSome) := by
  have key : ∀ {s1 s2 : St} {o : Out Unit}, (if (!f.mode.rdonly && !f.isDevice) = true then call (.ftruncate (os.ftruncate s1.ev)) (os.ftruncate s1.ev) s1 else (.ok (), s1)) = (o, s2) →
      ((∃ u, o = .ok u) ∨ ∃ e, o = .throws e) → ∃ l, Adds s1 s2 l ∧ (∀ x ∈ l, x.sizing f.isDevice = true) ∧ (∀ e, o = .throws e → e = .ioError) := by
    intro s1 s2 o h ho
    split at h
    · rename_i hc
      rcases ho with ⟨u, rfl⟩ | ⟨e, rfl⟩
      · rw [call_ok] at h; exact ⟨_, h.2, by simp_all [Ev.sizing], by simp⟩
      · rw [call_throw] at h; exact ⟨_, h.2.2, by simp_all [Ev.sizing], by intro e' he; cases he; exact h.2.1⟩
    · cases h; exact ⟨[], Adds.nil _, by simp, by simp⟩
  unfold setSize at h
  rcases ho with ⟨u, rfl⟩ | ⟨e, rfl⟩
  · simp only [bind_ok] at h
    obtain ⟨cur, s1, h1, _, s2, h2, h3⟩ := h
    have h1' := size_ok h1
    obtain ⟨l, hl, hl', _⟩ := key h2 (.inl ⟨_, rfl⟩)
    split at h3
    · rw [call_ok] at h3
      refine ⟨_, (h1'.1.trans hl).trans h3.2, ?_, by simp, fun _ => h1'.2.1⟩
      intro x hx
      simp only [List.mem_append, List.mem_singleton] at hx
      rcases hx with (rfl | hx) | rfl
      · rfl
      · exact hl' x hx
      · rfl
    · cases h3
      refine ⟨_, h1'.1.trans hl, ?_, by simp, fun _ => h1'.2.1⟩
      intro x hx
      simp only [List.mem_append, List.mem_singleton] at hx
      rcases hx with rfl | hx
      · rfl
      · exact hl' x hx
  · simp only [bind_throw, bind_ok] at h
    rcases h with h | ⟨cur, s1, h1, h | ⟨_, s2, h2, h3⟩⟩
    · have := size_throw h
      rcases this.2 with ⟨_, h2⟩ | h2
      · exact ⟨_, h2, by simp [Ev.sizing], by intro e' he; cases he; exact this.1, by simp⟩
      · exact ⟨_, h2, by simp [Ev.sizing], by intro e' he; cases he; exact this.1, by simp⟩
    · have h1' := size_ok h1
      obtain ⟨l, hl, hl', he⟩ := key h (.inr ⟨_, rfl⟩)
      refine ⟨_, h1'.1.trans hl, ?_, he, by simp⟩
      intro x hx
      simp only [List.mem_append, List.mem_singleton] at hx
      rcases hx with rfl | hx
      · rfl
      · exact hl' x hx
    · have h1' := size_ok h1
      obtain ⟨l, hl, hl', _⟩ := key h2 (.inl ⟨_, rfl⟩)
      split at h3
      · rw [call_throw] at h3
        refine ⟨_, (h1'.1.trans hl).trans h3.2.2, ?_, by intro e' he; cases he; exact h3.2.1, by simp⟩
        intro x hx
        simp only [List.mem_append, List.mem_singleton] at hx
        rcases hx with (rfl | hx) | rfl
        · rfl
        · exact hl' x hx
        · rfl
      · cases h3

theorem closeRemove_ok {os : Os} {f f' : Ufs} {s s' : St} (h : closeRemove os f s = (.ok f', s')) :
    f'.fd = none ∧ ∃ ok, Adds s s' ((if f.fd.isSome then [.close true] else []) ++ (if f.isDevice then [] else [.remove f.path ok])) := by
  unfold closeRemove at h
  simp only [bind_ok] at h
  obtain ⟨f1, s1, h1, h2⟩ := h
  have hc : f1.fd = none ∧ f1.isDevice = f.isDevice ∧ f1.path = f.path ∧ Adds s s1 (if f.fd.isSome then [.close true] else []) := by
    unfold close at h1
    cases hf : f.fd with
    | none => rw [hf] at h1; cases h1; exact ⟨hf, rfl, rfl, Adds.nil _⟩
    | some fl =>
      rw [hf] at h1
      simp only [bind_ok, call_ok, pure_ok] at h1
      obtain ⟨_, s2, ⟨h2', h3⟩, rfl, rfl⟩ := h1
      rw [h2'] at h3; exact ⟨rfl, rfl, rfl, h3⟩
  split at h2
  · rename_i hd
    cases h2
    refine ⟨hc.1, true, ?_⟩
    rw [← hc.2.1, hd]; simpa using hc.2.2.2
  · rename_i hd
    simp only [bind_ok, note_ok, pure_ok] at h2
    obtain ⟨_, s2, h3, rfl, rfl⟩ := h2
    have hd' : f1.isDevice = false := by simpa using hd
    refine ⟨hc.1, os.remove s1.ev f1.path, ?_⟩
    rw [← hc.2.1, hd', ← hc.2.2.1]
    exact hc.2.2.2.trans h3

/-- The destructor of a file per block. -/
theorem destroyFpb_ok {os : Os} {f : Ufs} {s s' : St} {u : Unit}
    (h : M.bind (closeRemove os f) (fun f' => destroy os f') s = (.ok u, s')) :
    ∃ ok, Adds s s' ((if f.fd.isSome then [.close true] else []) ++ (if f.isDevice then [] else [.remove f.path ok])) := by
  simp only [bind_ok] at h
  obtain ⟨f', s1, h1, h2⟩ := h
  obtain ⟨h3, ok, h4⟩ := closeRemove_ok h1
  have h5 := destroy_ok h2
  rw [h3] at h5
  simp only [Option.isSome_none, Bool.false_eq_true, if_false] at h5
  refine ⟨ok, ?_⟩
  have := h4.trans h5
  rw [List.append_nil] at this
  exact this

theorem openFpb_ok {os : Os} {b : Build} {m : Mode} {s s' : St} {f : Ufs} (h : openFpb os b m s = (.ok f, s')) :
    ∃ s1 l, construct os b (Files.lockName s.disk.path) m s = (.ok f, s1) ∧ f.fd.isSome ∧ s'.disk = s1.disk ∧ s'.cfg = s1.cfg ∧
      (∀ x ∈ l, x.sizing f.isDevice = true) ∧ s'.ev = s1.ev ++ l ++ [.setlk (!m.rdonly) true] := by
  unfold openFpb at h
  simp only [bind_ok, guard_ok, call_ok] at h
  obtain ⟨f', s1, hc, _, s2, hz, _, s3, hw, _, s4, hl, hp⟩ := h
  rw [pure_ok] at hp
  obtain ⟨rfl, rfl⟩ := hp
  obtain ⟨l, h1, h2, _, h3⟩ := setSize_end hz (.inl ⟨_, rfl⟩)
  have hl' := lock_ok hl
  rw [(construct_ok hc).2.1] at hl'
  refine ⟨s1, l ++ [.write (os.write s2.ev)], hc, hl'.2, ?_⟩
  rw [hl'.1, hw.2, h1]
  refine ⟨rfl, rfl, ?_, by simp⟩
  intro x hx
  simp only [List.mem_append, List.mem_singleton] at hx
  rcases hx with hx | rfl
  · exact h2 x hx
  · rfl

theorem openFpb_throw {os : Os} {b : Build} {m : Mode} {s s' : St} {e : Exc} (h : openFpb os b m s = (.throws e, s')) :
    e = .ioError ∧ (construct os b (Files.lockName s.disk.path) m s = (.throws e, s') ∨
      ∃ f s1 l ok, construct os b (Files.lockName s.disk.path) m s = (.ok f, s1) ∧ (∀ x ∈ l, x.sizing f.isDevice = true) ∧
        s'.disk = s1.disk ∧ s'.cfg = s1.cfg ∧ l ≠ [] ∧ (f.fd = none → l = [.badFd]) ∧
        s'.ev = s1.ev ++ l ++ ((if f.fd.isSome then [.close true] else []) ++ (if f.isDevice then [] else [.remove f.path ok]))) := by
  unfold openFpb at h
  simp only [bind_throw] at h
  rcases h with h | ⟨f, s1, hc, hg⟩
  · exact ⟨(construct_throw h).1, .inl h⟩
  · rw [guard_throw] at hg
    obtain ⟨s2, hx, hd⟩ := hg
    obtain ⟨ok, hd'⟩ := destroyFpb_ok hd
    suffices hs : e = .ioError ∧ ∃ l, Adds s1 s2 l ∧ (∀ x ∈ l, x.sizing f.isDevice = true) ∧ l ≠ [] ∧ (f.fd = none → l = [.badFd]) by
      obtain ⟨h0, l, h1, h2, h3, h4⟩ := hs
      refine ⟨h0, .inr ⟨f, s1, l, ok, hc, h2, ?_⟩⟩
      rw [hd', h1]; exact ⟨rfl, rfl, h3, h4, rfl⟩
    simp only [bind_throw] at hx
    rcases hx with hx | ⟨_, s3, hz, hx⟩
    · obtain ⟨l, h1, h2, h3, _⟩ := setSize_end hx (.inr ⟨_, rfl⟩)
      refine ⟨h3 e rfl, l, h1, h2, ?_⟩
      -- at least the call of `lseek`
      have hsz : ∃ e0 r, Adds s1 s2 (e0 :: r) ∧ (f.fd = none → e0 :: r = [.badFd]) := by
        unfold setSize at hx
        rw [bind_throw] at hx
        rcases hx with hx | ⟨cur, s4, h4, h5⟩
        · rcases (size_throw hx).2 with ⟨_, h6⟩ | h6
          · exact ⟨_, _, h6, fun _ => rfl⟩
          · refine ⟨_, _, h6, fun hn => ?_⟩
            unfold size at hx; rw [hn] at hx
            simp only [bind_throw, call_throw, call_ok, pure_throw, and_false, exists_false, or_false] at hx
            have h7 := hx.2.2
            unfold Adds at h6 h7; rw [h6] at h7
            simp at h7
        · obtain ⟨h6, h7, _⟩ := size_ok h4
          have h8 : ∃ r, Adds s4 s2 r := by
            simp only [bind_throw, bind_ok] at h5
            rcases h5 with h5 | ⟨_, s5, h5, h9⟩
            · split at h5
              · rw [call_throw] at h5; exact ⟨_, h5.2.2⟩
              · cases h5
            · split at h9
              · rw [call_throw] at h9
                split at h5
                · rw [call_ok] at h5; exact ⟨_, h5.2.trans h9.2.2⟩
                · cases h5; exact ⟨_, h9.2.2⟩
              · cases h9
          obtain ⟨r, h8⟩ := h8
          exact ⟨_, _, h6.trans h8, fun hn => by rw [hn] at h7; cases h7⟩
      obtain ⟨e0, r, h4, h5⟩ := hsz
      have h6 : l = e0 :: r := by
        unfold Adds at h1 h4; rw [h4] at h1
        have := congrArg St.ev h1
        simpa using this.symm
      rw [h6]; exact ⟨by simp, h5⟩
    · obtain ⟨l, h1, h2, _, h3⟩ := setSize_end hz (.inl ⟨_, rfl⟩)
      have hne : f.fd ≠ none := fun h => by have := h3 ⟨_, rfl⟩; rw [h] at this; cases this
      rcases hx with hx | ⟨_, s4, hw, hx⟩
      · rw [call_throw] at hx
        refine ⟨hx.2.1, _, h1.trans hx.2.2, ?_, by simp, fun h => absurd h hne⟩
        intro x hx
        simp only [List.mem_append, List.mem_singleton] at hx
        rcases hx with hx | rfl
        · exact h2 x hx
        · rfl
      · rw [call_ok] at hw
        simp only [pure_throw, and_false, exists_false, or_false] at hx
        have h4 := lock_throw hx
        refine ⟨h4.1, ?_⟩
        rcases h4.2 with ⟨h5, _⟩ | ⟨_, h5⟩
        · exact absurd h5 hne
        · refine ⟨_, (h1.trans hw.2).trans h5, ?_, by simp, fun h => absurd h hne⟩
          intro x hx
          simp only [List.mem_append, List.mem_singleton] at hx
          rcases hx with (hx | rfl) | rfl
          · exact h2 x hx
          · rfl
          · rfl

/-! ### `create_file` -/

theorem construct_adds {os : Os} {b : Build} {path : Str} {m : Mode} {s s' : St} {f : Ufs}
    (h : construct os b path m s = (.ok f, s')) : ∃ l, Adds s s' l := by
  rcases (construct_ok h).2.2 with h | h | h
  · rw [h.2.2.1]; exact ⟨[], Adds.nil _⟩
  · exact ⟨_, h.2.2.2.2.1⟩
  · exact ⟨_, h.2.2.2.2.2.2.1⟩

/-- With a descriptor: the calls of the constructor. -/
theorem construct_evs {os : Os} {b : Build} {path : Str} {m : Mode} {s s' : St} {f : Ufs} {fl : Flags}
    (h : construct os b path m s = (.ok f, s')) (hf : f.fd = some fl) :
    ∃ pre, (pre = [] ∨ pre = [.open path (flagsOf b m) false]) ∧ Adds s s' (pre ++ .open path fl true :: initEvs m) := by
  rcases (construct_ok h).2.2 with h | h | h
  · rw [hf] at h; cases h.2.2.2.1
  · have := h.2.2.1; rw [hf] at this; cases this
    exact ⟨[], .inl rfl, h.2.2.2.2.1⟩
  · have := h.2.2.2.2.1; rw [hf] at this; cases this
    exact ⟨_, .inr rfl, h.2.2.2.2.2.2.1⟩

theorem initEvs_quiet (m : Mode) : ∀ e ∈ initEvs m, e.quiet = true := by
  intro e he
  unfold initEvs at he
  cases hn : m.noLock <;> rw [hn] at he <;> simp at he
  · rcases he with rfl | rfl <;> rfl
  · rw [he]; rfl

theorem live_construct {os : Os} {b : Build} {path : Str} {m : Mode} {s s' : St} {f : Ufs}
    (h : construct os b path m s = (.ok f, s')) : live s'.ev = live s.ev + (if f.fd.isSome then 1 else 0) := by
  cases hf : f.fd with
  | none =>
    rcases (construct_ok h).2.2 with h | h | h
    · rw [h.2.2.1]; simp
    · rw [hf] at h; cases h.2.2.1
    · rw [hf] at h; cases h.2.2.2.2.1
  | some fl =>
    obtain ⟨pre, hp, ha⟩ := construct_evs h hf
    rw [ha]
    simp only [live_append, live, live_quiet (initEvs_quiet m), Ev.delta, Option.isSome_some, if_true]
    rcases hp with rfl | rfl
    · simp [live]
    · simp [live, Ev.delta]

theorem leak_last (l : List Ev) (e : Ev) (h : e.initFailed = false) : leak (l ++ [e]) = 0 := by
  unfold leak; simp [h]

theorem construct_leak {os : Os} {b : Build} {path : Str} {m : Mode} {s s' : St} {e : Exc}
    (h : construct os b path m s = (.throws e, s')) : ∃ l, Adds s s' l ∧ live l = leak l := by
  obtain ⟨_, fl, h | ⟨fl', h⟩ | ⟨pre, x, hp, hx, h⟩⟩ := construct_throw h
  · exact ⟨_, h, rfl⟩
  · exact ⟨_, h, rfl⟩
  · refine ⟨_, h, ?_⟩
    rcases hp with rfl | rfl <;> rcases hx with rfl | ⟨_, rfl⟩ <;> rfl

theorem openUfs_leak {os : Os} {b : Build} {m : Mode} {check : Bool} {s s' : St} {e : Exc}
    (h : openUfs os b m check s = (.throws e, s')) : ∃ l, s'.ev = s.ev ++ l ∧ live l = leak l := by
  rcases (openUfs_throw h).2 with hc | ⟨f, s1, l, hc, hq, hn, he⟩
  · obtain ⟨l, h1, h2⟩ := construct_leak hc
    exact ⟨l, by rw [h1], h2⟩
  · have hl := live_construct hc
    obtain ⟨l1, h1⟩ := construct_adds hc
    cases hf : f.fd with
    | none =>
      rw [hf] at he hl
      simp only [Option.isSome_none, Bool.false_eq_true, if_false, List.append_nil, Int.add_zero] at he hl
      rw [hn hf] at he
      refine ⟨l1 ++ [.badFd], by rw [he, h1]; simp, ?_⟩
      rw [leak_last _ _ rfl, live_append]
      rw [h1, live_append] at hl
      simp only [live, Ev.delta]; omega
    | some fl =>
      rw [hf] at he hl
      simp only [Option.isSome_some, if_true] at he hl
      refine ⟨l1 ++ l ++ [.close true], by rw [he, h1]; simp, ?_⟩
      rw [leak_last _ _ rfl, live_append, live_append, live_quiet (fun x hx => (hq x hx).1)]
      rw [h1, live_append] at hl
      simp only [live, Ev.delta]; omega

theorem openFpb_leak {os : Os} {b : Build} {m : Mode} {s s' : St} {e : Exc}
    (h : openFpb os b m s = (.throws e, s')) : ∃ l, s'.ev = s.ev ++ l ∧ live l = leak l := by
  rcases (openFpb_throw h).2 with hc | ⟨f, s1, l, ok, hc, hq, _, _, hne, hn, he⟩
  · obtain ⟨l, h1, h2⟩ := construct_leak hc
    exact ⟨l, by rw [h1], h2⟩
  · have hl := live_construct hc
    obtain ⟨l1, h1⟩ := construct_adds hc
    rw [h1, live_append] at hl
    have hq' := live_quiet (fun x hx => sizing_quiet (hq x hx))
    refine ⟨l1 ++ l ++ ((if f.fd.isSome then [.close true] else []) ++ (if f.isDevice then [] else [.remove f.path ok])), by rw [he, h1]; simp, ?_⟩
    have h0 : leak (l1 ++ l ++ ((if f.fd.isSome then [.close true] else []) ++ (if f.isDevice then [] else [.remove f.path ok]))) = 0 := by
      cases hd : f.isDevice with
      | false =>
        simp only [Bool.false_eq_true, if_false]
        rw [← List.append_assoc]; exact leak_last _ _ rfl
      | true =>
        simp only [if_true, List.append_nil]
        cases hf : f.fd with
        | none =>
          simp only [Option.isSome_none, Bool.false_eq_true, if_false, List.append_nil]
          rw [hn hf]; exact leak_last _ _ rfl
        | some fl => exact leak_last _ _ rfl
    rw [h0]
    simp only [live_append, hq']
    cases hd : f.isDevice <;> cases hf : f.fd <;> simp [hf, live, Ev.delta] at hl ⊢ <;> omega

theorem openKind_throw {os : Os} {b : Build} {m : Mode} {k : Kind} {s s' : St} {e : Exc}
    (h : openKind os b m k s = (.throws e, s')) : e = .ioError ∧ ∃ l, s'.ev = s.ev ++ l ∧ live l = leak l := by
  have hu : ∀ {c : Bool}, M.bind (openUfs os b m c) (fun f => M.pure (some f)) s = (.throws e, s') →
      e = .ioError ∧ ∃ l, s'.ev = s.ev ++ l ∧ live l = leak l := by
    intro c h
    simp only [bind_throw, pure_throw, and_false, exists_false, or_false] at h
    exact ⟨(openUfs_throw h).1, openUfs_leak h⟩
  have hf : M.bind (openFpb os b m) (fun f => M.pure (some f)) s = (.throws e, s') →
      e = .ioError ∧ ∃ l, s'.ev = s.ev ++ l ∧ live l = leak l := by
    intro h
    simp only [bind_throw, pure_throw, and_false, exists_false, or_false] at h
    exact ⟨(openFpb_throw h).1, openFpb_leak h⟩
  cases k with
  | syscall => exact hu h
  | linuxaio => exact hu h
  | mmap => exact hu h
  | fpbSyscall => exact hf h
  | fpbMmap => exact hf h
  | memory => cases h

/-- The file opened for a disk. -/
def nameOf (k : Kind) (p : Str) : Str :=
  match k with
  | .fpbSyscall => Files.lockName p
  | .fpbMmap => Files.lockName p
  | _ => p

/-- Summary of the successful end of `openKind`. -/
def KindOk (os : Os) (b : Build) (m : Mode) (k : Kind) (s s' : St) (u : Option Ufs) : Prop :=
    (k = .memory ∧ u = none ∧ s' = s) ∨
    (k ≠ .memory ∧ ∃ f s1 l r, u = some f ∧ construct os b (nameOf k s.disk.path) m s = (.ok f, s1) ∧ f.fd.isSome ∧
      s'.cfg = s.cfg ∧ s'.ev = s1.ev ++ l ++ .setlk (!m.rdonly) true :: r ∧ (∀ x ∈ l ++ r, x.quiet = true) ∧
      (f.isDevice = true → ∀ x ∈ l ++ r, x.destructive = false) ∧
      ((s'.disk = s.disk ∧ ((k = .syscall ∨ k = .linuxaio) → f.isDevice = false ∧ s.disk.rawDevice = false)) ∨
       ((k = .syscall ∨ k = .linuxaio) ∧ f.isDevice = true ∧ ∃ n h, os.lseekEnd h = some n ∧ s'.disk = asDevice s.disk n)))

theorem openKind_ok {os : Os} {b : Build} {m : Mode} {k : Kind} {s s' : St} {u : Option Ufs}
    (h : openKind os b m k s = (.ok u, s')) : KindOk os b m k s s' u := by
  have hu : ∀ {c : Bool}, (k = .syscall ∨ k = .linuxaio → c = true) → (c = true → k = .syscall ∨ k = .linuxaio) →
      k ≠ .memory → nameOf k s.disk.path = s.disk.path → M.bind (openUfs os b m c) (fun f => M.pure (some f)) s = (.ok u, s') → KindOk os b m k s s' u := by
    intro c hk hk' hm hnm h
    simp only [bind_ok, pure_ok] at h
    obtain ⟨f, s2, h1, rfl, rfl⟩ := h
    obtain ⟨s1, hc, hfd, h2⟩ := openUfs_ok h1
    refine Or.inr ⟨hm, f, s1, [], ?_⟩
    rw [hnm]
    rcases h2 with ⟨h3, h4, h5, h6, h7⟩ | ⟨h3, h4, h5, h6, n, h7, h8⟩
    · refine ⟨if (s.disk.unlinkOnOpen && !f.isDevice) = true then [.unlink s.disk.path true] else [], rfl, hc, hfd, h6, by rw [h7]; simp, ?_, ?_, .inl ⟨h5, ?_⟩⟩
      · intro x hx
        split at hx
        · simp at hx; subst hx; rfl
        · simp at hx
      · intro hd x hx
        rw [hd] at hx; simp at hx
      · intro hkk
        have hct := hk hkk
        refine ⟨?_, h4 hct⟩
        rcases h3 with h3 | h3
        · rw [hct] at h3; cases h3
        · exact h3
    · refine ⟨[.lseek true], rfl, hc, hfd, h5, by rw [h6]; simp, by simp [Ev.quiet], by simp [Ev.destructive], .inr ⟨hk' h3, h4, n, _, h7, h8⟩⟩
  have hf : (k = .fpbSyscall ∨ k = .fpbMmap) → M.bind (openFpb os b m) (fun f => M.pure (some f)) s = (.ok u, s') →
      k ≠ .memory ∧ ∃ f s1 l r, u = some f ∧ construct os b (Files.lockName s.disk.path) m s = (.ok f, s1) ∧ f.fd.isSome ∧
      s'.cfg = s.cfg ∧ s'.ev = s1.ev ++ l ++ .setlk (!m.rdonly) true :: r ∧ (∀ x ∈ l ++ r, x.quiet = true) ∧
      (f.isDevice = true → ∀ x ∈ l ++ r, x.destructive = false) ∧ s'.disk = s.disk := by
    intro hk h
    simp only [bind_ok, pure_ok] at h
    obtain ⟨f, s2, h1, rfl, rfl⟩ := h
    obtain ⟨s1, l, hc, hfd, h2, h3, h4, h5⟩ := openFpb_ok h1
    obtain ⟨l1, ha⟩ := construct_adds hc
    refine ⟨by rcases hk with rfl | rfl <;> simp, f, s1, l, [], rfl, hc, hfd, by rw [h3, ha], by rw [h5], ?_, ?_, by rw [h2, ha]⟩
    · intro x hx; simp at hx; exact sizing_quiet (h4 x hx)
    · intro hd x hx
      simp at hx
      have := h4 x hx
      rw [hd] at this
      cases x <;> simp_all [Ev.sizing, Ev.destructive]
  have hf' : (k = .fpbSyscall ∨ k = .fpbMmap) → nameOf k s.disk.path = Files.lockName s.disk.path → M.bind (openFpb os b m) (fun f => M.pure (some f)) s = (.ok u, s') → KindOk os b m k s s' u := by
    intro hk hnm h
    obtain ⟨h1, f, s1, l, r, h2, h3, h4, h5, h6, h7, h8, h9⟩ := hf hk h
    refine Or.inr ⟨h1, f, s1, l, r, h2, by rw [hnm]; exact h3, h4, h5, h6, h7, h8, .inl ⟨h9, ?_⟩⟩
    intro hkk
    rcases hk with rfl | rfl <;> simp at hkk
  cases k with
  | syscall => exact hu (fun _ => rfl) (fun _ => .inl rfl) (by simp) rfl h
  | linuxaio => exact hu (fun _ => rfl) (fun _ => .inr rfl) (by simp) rfl h
  | mmap => exact hu (c := false) (by simp) (by simp) (by simp) rfl h
  | fpbSyscall => exact hf' (.inl rfl) rfl h
  | fpbMmap => exact hf' (.inr rfl) rfl h
  | memory => cases h; exact .inl ⟨rfl, rfl, rfl⟩

theorem setId_fields (s : St) : (setId s).ev = s.ev ∧ (setId s).disk = { s.disk with deviceId := (setId s).disk.deviceId } :=
  ⟨rfl, rfl⟩

theorem setQueue_fields (k : Kind) (s : St) : (setQueue k s).ev = s.ev ∧ (setQueue k s).cfg = s.cfg ∧
    (setQueue k s).disk = { s.disk with queue := (setQueue k s).disk.queue } := by
  unfold setQueue; split <;> exact ⟨rfl, rfl, rfl⟩

/-- A successful `create_file`. -/
theorem createFile_ok {os : Os} {b : Build} {m : Mode} {a : Int} {s s' : St} {o : FileObj}
    (h : createFile os b m a s = (.ok o, s')) :
    ∃ k, kindOf b s.disk.ioImpl = some k ∧
      openKind os b (applyDirect s.disk.direct m) k (setQueue k (setId s)) = (.ok o.ufs, s') ∧
      o = { kind := k, ufs := o.ufs, queue := s'.disk.queue, alloc := a, device := s'.disk.deviceId, queueLength := if k = .linuxaio then s'.disk.queueLength else 0 } := by
  unfold createFile at h
  simp only at h
  cases hk : kindOf b (setId s).disk.ioImpl with
  | none => rw [hk] at h; cases h
  | some k =>
    rw [hk] at h
    simp only [bind_ok] at h
    obtain ⟨u, s3, h1, h2⟩ := h
    cases h2
    refine ⟨k, hk, ?_, rfl⟩
    have : (setQueue k (setId s)).disk.direct = s.disk.direct := by rw [(setQueue_fields k _).2.2]; rfl
    rw [this] at h1; exact h1

theorem createFile_throw {os : Os} {b : Build} {m : Mode} {a : Int} {s s' : St} {e : Exc}
    (h : createFile os b m a s = (.throws e, s')) :
    (e = .runtimeError ∧ kindOf b s.disk.ioImpl = none ∧ s' = setId s) ∨
    (e = .ioError ∧ ∃ k, kindOf b s.disk.ioImpl = some k ∧
      openKind os b (applyDirect s.disk.direct m) k (setQueue k (setId s)) = (.throws e, s')) := by
  unfold createFile at h
  simp only at h
  cases hk : kindOf b (setId s).disk.ioImpl with
  | none => rw [hk] at h; cases h; exact .inl ⟨rfl, hk, rfl⟩
  | some k =>
    rw [hk] at h
    simp only [bind_throw] at h
    rcases h with h | ⟨_, _, _, h⟩
    · have hd : (setQueue k (setId s)).disk.direct = s.disk.direct := by rw [(setQueue_fields k _).2.2]; rfl
      rw [hd] at h
      exact .inr ⟨(openKind_throw h).1, k, hk, h⟩
    · cases h

theorem createFile_leak {os : Os} {b : Build} {m : Mode} {a : Int} {s s' : St} {e : Exc}
    (h : createFile os b m a s = (.throws e, s')) : ∃ l, s'.ev = s.ev ++ l ∧ live l = leak l := by
  rcases createFile_throw h with ⟨_, _, rfl⟩ | ⟨_, k, _, h1⟩
  · exact ⟨[], by simp [setId], rfl⟩
  · obtain ⟨_, l, h2, h3⟩ := openKind_throw h1
    rw [(setQueue_fields k _).1, (setId_fields s).1] at h2
    exact ⟨l, h2, h3⟩

theorem createFile_live {os : Os} {b : Build} {m : Mode} {a : Int} {s s' : St} {o : FileObj}
    (h : createFile os b m a s = (.ok o, s')) :
    ∃ l, s'.ev = s.ev ++ l ∧ live l = (if o.ufs.isSome then 1 else 0) ∧ (∀ f, o.ufs = some f → f.fd.isSome) := by
  obtain ⟨k, _, h1, _⟩ := createFile_ok h
  have hev : (setQueue k (setId s)).ev = s.ev := by rw [(setQueue_fields k _).1]; rfl
  rcases openKind_ok h1 with ⟨_, h2, h3⟩ | ⟨_, f, s1, l, r, h2, h3, h4, _, h5, h6, _⟩
  · refine ⟨[], by rw [h3, hev]; simp, by rw [h2]; rfl, by rw [h2]; simp⟩
  · have h7 := live_construct h3
    obtain ⟨l1, h8⟩ := construct_adds h3
    rw [h4] at h7
    rw [h8, live_append] at h7
    refine ⟨l1 ++ l ++ .setlk (!(applyDirect s.disk.direct m).rdonly) true :: r, by rw [h5, h8, hev]; simp, ?_, ?_⟩
    · rw [h2]
      have hl := live_quiet (l := l) (fun x hx => h6 x (by simp [hx]))
      have hr := live_quiet (l := r) (fun x hx => h6 x (by simp [hx]))
      simp only [live_append, live, hl, hr, Ev.delta, Option.isSome_some, if_true] at h7 ⊢
      omega
    · intro g hg; rw [h2] at hg; cases hg; exact h4

theorem destroyObj_live {os : Os} {o : FileObj} {s s' : St} {u : Unit} (h : destroyObj os o s = (.ok u, s'))
    (ho : ∀ f, o.ufs = some f → f.fd.isSome) : ∃ l, s'.ev = s.ev ++ l ∧ live l = -(if o.ufs.isSome then 1 else 0) := by
  unfold destroyObj at h
  cases hu : o.ufs with
  | none => rw [hu] at h; cases h; exact ⟨[], by simp, by simp [live]⟩
  | some f =>
    rw [hu] at h
    have hf := ho f hu
    have h1 : destroy os f s = (.ok u, s') → ∃ l, s'.ev = s.ev ++ l ∧ live l = -1 := by
      intro h
      have h2 := destroy_ok h
      rw [hf] at h2
      exact ⟨_, by rw [h2], rfl⟩
    have h2 : M.bind (closeRemove os f) (fun f' => destroy os f') s = (.ok u, s') → ∃ l, s'.ev = s.ev ++ l ∧ live l = -1 := by
      intro h
      obtain ⟨ok, h3⟩ := destroyFpb_ok h
      rw [hf] at h3
      refine ⟨_, by rw [h3], ?_⟩
      cases f.isDevice <;> rfl
    simp only [Option.isSome_some, if_true]
    cases hk : o.kind <;> rw [hk] at h <;> first | exact h1 h | exact h2 h

theorem openDisk_ev {os : Os} {b : Build} {i : Nat} {d : Disk} {s : St} :
    (openDisk os b i d s).2.ev = (createFile os b { creat := true, rdwr := true } i { s with disk := queueOf i d }).2.ev := rfl

theorem openDisks_ok {os : Os} {b : Build} {ds : List Disk} : ∀ {i : Nat} {s s' : St} {l : List FileObj},
    openDisks os b i ds s = (.ok l, s') → ∃ r, s'.ev = s.ev ++ r ∧ live r = files l ∧ l.length = ds.length := by
  induction ds with
  | nil => intro i s s' l h; cases h; exact ⟨[], by simp, rfl, rfl⟩
  | cons d ds ih =>
    intro i s s' l h
    unfold openDisks at h
    simp only [bind_ok, guard_ok, pure_ok] at h
    obtain ⟨o, s1, h1, l', s2, h2, rfl, rfl⟩ := h
    obtain ⟨r2, h3, h4, h4'⟩ := ih h2
    unfold openDisk at h1
    simp only [Prod.mk.injEq] at h1
    obtain ⟨r1, h5, h6, _⟩ := createFile_live (o := o) (s' := (createFile os b { creat := true, rdwr := true } i { s with disk := queueOf i d }).2) (by rw [← h1.1])
    refine ⟨r1 ++ r2, ?_, ?_, by simp [h4']⟩
    · rw [h3, ← h1.2]; simp only [putBack]; rw [h5]; simp
    · rw [live_append, h6, h4]; rfl

theorem openDisks_throw {os : Os} {b : Build} {ds : List Disk} : ∀ {i : Nat} {s s' : St} {e : Exc},
    openDisks os b i ds s = (.throws e, s') →
      ∃ r, s'.ev = s.ev ++ r ∧ (live r = 0 ∨ (live r = 1 ∧ ∃ x ∈ r, x.initFailed = true)) := by
  induction ds with
  | nil => intro i s s' e h; cases h
  | cons d ds ih =>
    intro i s s' e h
    unfold openDisks at h
    simp only [bind_throw] at h
    rcases h with h | ⟨o, s1, h1, h2⟩
    · unfold openDisk at h
      simp only [Prod.mk.injEq] at h
      obtain ⟨r, h3, h4⟩ := createFile_leak (e := e) (s' := (createFile os b { creat := true, rdwr := true } i { s with disk := queueOf i d }).2) (by rw [← h.1])
      refine ⟨r, by rw [← h.2]; exact h3, ?_⟩
      rw [h4]; unfold leak
      split
      · rename_i hc
        refine .inr ⟨rfl, ?_⟩
        rw [Option.map_eq_some_iff] at hc
        obtain ⟨x, hx, hx'⟩ := hc
        exact ⟨x, List.mem_of_getLast? hx, hx'⟩
      · exact .inl rfl
    · rw [guard_throw] at h2
      obtain ⟨s2, h3, h4⟩ := h2
      simp only [bind_throw, pure_throw, and_false, exists_false, or_false] at h3
      obtain ⟨r2, h5, h6⟩ := ih h3
      unfold openDisk at h1
      simp only [Prod.mk.injEq] at h1
      obtain ⟨r1, h7, h8, h9⟩ := createFile_live (o := o) (s' := (createFile os b { creat := true, rdwr := true } i { s with disk := queueOf i d }).2) (by rw [← h1.1])
      obtain ⟨r3, h10, h11⟩ := destroyObj_live h4 h9
      refine ⟨r1 ++ r2 ++ r3, ?_, ?_⟩
      · rw [h10, h5, ← h1.2]; simp only [putBack]; rw [h7]; simp
      · simp only [live_append, h8, h11]
        rcases h6 with h6 | ⟨h6, x, hx, hx'⟩
        · left; rw [h6]; omega
        · right; rw [h6]; exact ⟨by omega, x, by simp [hx], hx'⟩

/-- A failed construction changes no file, unless truncation is demanded. -/
theorem construct_throw' {os : Os} {b : Build} {path : Str} {m : Mode} {s s' : St} {e : Exc} (h : construct os b path m s = (.throws e, s')) :
    e = .ioError ∧ ∃ (_ : Flags) (l : List Ev), s'.ev = s.ev ++ l ∧ (m.trunc = false → ∀ x ∈ l, x.touches = false) := by
  have hfl : m.trunc = false → (flagsOf b m).trunc = false := fun h => h
  have hgo : ∃ (l : List Ev), s'.ev = s.ev ++ l ∧ (m.trunc = false → ∀ x ∈ l, x.touches = false) := by
    have hA : ∀ {f : Ufs} {s1 : St} {e : Exc}, f.fd.isSome → afterOpen os f s1 = (.throws e, s') → ∃ r, s'.ev = s1.ev ++ r ∧ ∀ x ∈ r, x.touches = false := by
      intro f s1 e hfd ha
      rcases (afterOpen_throw hfd ha).2 with h1 | ⟨_, h1⟩
      · exact ⟨_, by rw [h1], by simp [Ev.touches, Ev.destructive]⟩
      · exact ⟨_, by rw [h1], by simp [Ev.touches, Ev.destructive]⟩
    unfold construct at h
    simp only at h
    split at h
    · cases h
    · cases ho : os.opened s.ev path (flagsOf b m) with
      | ok =>
        rw [ho] at h
        simp only [bind_throw, note_ok, note_throw, false_or] at h
        obtain ⟨_, s1, h1, h2⟩ := h
        obtain ⟨r, h3, h4⟩ := hA rfl h2
        refine ⟨.open path (flagsOf b m) true :: r, by rw [h3, h1]; simp, ?_⟩
        intro ht x hx
        rw [List.mem_cons] at hx
        rcases hx with rfl | hx
        · simp [Ev.touches, hfl ht]
        · exact h4 x hx
      | einval =>
        rw [ho] at h
        simp only at h
        split at h
        · simp only [bind_throw, note_ok, note_throw, false_or] at h
          obtain ⟨_, s1, h1, h2⟩ := h
          split at h2
          · simp only [bind_throw, note_ok, note_throw, false_or] at h2
            obtain ⟨_, s2, h3, h4⟩ := h2
            obtain ⟨r, h5, h6⟩ := hA rfl h4
            refine ⟨.open path (flagsOf b m) false :: .open path { flagsOf b m with direct := false } true :: r, by rw [h5, h3, h1]; simp, ?_⟩
            intro ht x hx
            simp only [List.mem_cons] at hx
            rcases hx with rfl | rfl | hx
            · simp [Ev.touches]
            · simp [Ev.touches, hfl ht]
            · exact h6 x hx
          · simp only [bind_throw, note_ok, note_throw, false_or] at h2
            obtain ⟨_, s2, h3, h4⟩ := h2
            unfold M.throw at h4; cases h4
            refine ⟨[.open path (flagsOf b m) false, .open path { flagsOf b m with direct := false } false], by rw [h3, h1]; simp, ?_⟩
            intro ht x hx
            simp only [List.mem_cons, List.not_mem_nil, or_false] at hx
            rcases hx with rfl | rfl <;> simp [Ev.touches]
        · simp only [bind_throw, note_ok, note_throw, false_or] at h
          obtain ⟨_, s2, h3, h4⟩ := h
          unfold M.throw at h4; cases h4
          exact ⟨_, by rw [h3], by simp [Ev.touches]⟩
      | other =>
        rw [ho] at h
        simp only [reduceCtorEq, decide_false, Bool.and_false, Bool.false_eq_true, if_false, bind_throw, note_ok, note_throw, false_or] at h
        obtain ⟨_, s2, h3, h4⟩ := h
        unfold M.throw at h4; cases h4
        exact ⟨_, by rw [h3], by simp [Ev.touches]⟩
  exact ⟨(construct_throw h).1, {}, hgo⟩

/-- Device ids. -/
theorem createFile_ids {os : Os} {b : Build} {m : Mode} {a : Int} {s s' : St} {o : FileObj} (h : createFile os b m a s = (.ok o, s')) :
    o.device = (Config.assignId s.cfg s.disk.deviceId).1 ∧ s'.cfg = (Config.assignId s.cfg s.disk.deviceId).2 := by
  obtain ⟨k, hk, h1, h0⟩ := createFile_ok h
  have hc : (setQueue k (setId s)).cfg = (Config.assignId s.cfg s.disk.deviceId).2 := by rw [(setQueue_fields k _).2.1]; rfl
  have hi : (setQueue k (setId s)).disk.deviceId = (Config.assignId s.cfg s.disk.deviceId).1 := by rw [(setQueue_fields k _).2.2]; rfl
  have hd : o.device = s'.disk.deviceId := by rw [h0]
  rw [hd]
  rcases openKind_ok h1 with ⟨_, _, h3⟩ | ⟨_, f, s1, l, r, _, _, _, h5, _, _, _, h7⟩
  · rw [h3]; exact ⟨hi, hc⟩
  · rw [h5]
    refine ⟨?_, hc⟩
    rcases h7 with ⟨h8, _⟩ | ⟨_, _, n, _, _, h8⟩
    · rw [h8]; exact hi
    · rw [h8]; exact hi

theorem assignId_bound {c : Config.Cfg} {w B : Nat} (hw : w = 2 ^ 32 - 1 ∨ w < B) (hm : c.maxDev ≤ B) (hB : B + 1 ≤ 2 ^ 32 - 2) :
    (Config.assignId c w).2.maxDev ≤ B + 1 ∧ c.maxDev ≤ (Config.assignId c w).2.maxDev ∧ (Config.assignId c w).1 < (Config.assignId c w).2.maxDev ∧
    (Config.assignId c w).1 = if w = 2 ^ 32 - 1 then c.maxDev else w := by
  unfold Config.assignId Config.nextDeviceId Config.updateMaxDeviceId
  by_cases hd : w = 2 ^ 32 - 1
  · subst hd
    simp only [if_true]
    rw [Nat.mod_eq_of_lt (show c.maxDev + 1 < 2 ^ 32 by omega)]
    exact ⟨by omega, by omega, by omega, trivial⟩
  · simp only [hd, if_false]
    rw [Nat.mod_eq_of_lt (show w + 1 < 2 ^ 32 by omega)]
    split
    · exact ⟨by dsimp only; omega, by dsimp only; omega, by dsimp only; omega, trivial⟩
    · exact ⟨by omega, by omega, by omega, trivial⟩

theorem openDisks_ids {os : Os} {b : Build} {ds : List Disk} : ∀ {i : Nat} {s s' : St} {l : List FileObj} {B : Nat},
    openDisks os b i ds s = (.ok l, s') → (∀ d ∈ ds, d.deviceId = 2 ^ 32 - 1 ∨ d.deviceId < B) → s.cfg.maxDev ≤ B → B + ds.length ≤ 2 ^ 32 - 2 →
    (∀ (j : Nat) (o : FileObj) (d : Disk), l[j]? = some o → ds[j]? = some d → (d.deviceId ≠ 2 ^ 32 - 1 → o.device = d.deviceId) ∧ (d.deviceId = 2 ^ 32 - 1 → s.cfg.maxDev ≤ o.device)) ∧
    (∀ (j k : Nat) (o o' : FileObj) (d : Disk), j < k → l[j]? = some o → l[k]? = some o' → ds[k]? = some d → d.deviceId = 2 ^ 32 - 1 → o.device < o'.device) := by
  induction ds with
  | nil => intro i s s' l B h; cases h; simp
  | cons d ds ih =>
    intro i s s' l B h hd hm hB
    unfold openDisks at h
    simp only [bind_ok, guard_ok, pure_ok] at h
    obtain ⟨o, s1, h1, l', s2, h2, rfl, rfl⟩ := h
    unfold openDisk at h1
    simp only [Prod.mk.injEq] at h1
    obtain ⟨h5, h6⟩ := createFile_ids (o := o) (s' := (createFile os b { creat := true, rdwr := true } i { s with disk := queueOf i d }).2) (by rw [← h1.1])
    have hq : (queueOf i d).deviceId = d.deviceId := by unfold queueOf; split <;> rfl
    simp only [hq] at h5 h6
    simp only [List.length_cons] at hB
    obtain ⟨b1, b2, b3, b4⟩ := assignId_bound (hd d (by simp)) hm (by omega)
    have hs1 : s1.cfg.maxDev = (Config.assignId s.cfg d.deviceId).2.maxDev := by rw [← h1.2]; simp only [putBack]; rw [h6]
    obtain ⟨i1, i2⟩ := ih (B := B + 1) h2 (fun d' hd' => (hd d' (by simp [hd'])).imp id (fun h => by omega)) (by rw [hs1]; exact b1) (by omega)
    constructor
    · intro j o' d' hj hdj
      cases j with
      | zero =>
        simp only [List.getElem?_cons_zero, Option.some.injEq] at hj hdj
        subst hj; subst hdj
        rw [h5, b4]
        constructor
        · intro hne; rw [if_neg hne]
        · intro he; rw [if_pos he]; exact Nat.le_refl _
      | succ j =>
        simp only [List.getElem?_cons_succ] at hj hdj
        have := i1 j o' d' hj hdj
        refine ⟨this.1, fun he => ?_⟩
        have := this.2 he
        omega
    · intro j k o1 o2 d' hjk hj hk hdk he
      cases k with
      | zero => omega
      | succ k =>
        simp only [List.getElem?_cons_succ] at hk hdk
        cases j with
        | zero =>
          simp only [List.getElem?_cons_zero, Option.some.injEq] at hj
          subst hj
          have := (i1 k o2 d' hk hdk).2 he
          rw [h5]; omega
        | succ j =>
          simp only [List.getElem?_cons_succ] at hj
          exact i2 j k o1 o2 d' (by omega) hj hk hdk he

/-- The `disk_config` after a successful `create_file`. -/
theorem createFile_disk {os : Os} {b : Build} {m : Mode} {a : Int} {s s' : St} {o : FileObj} (h : createFile os b m a s = (.ok o, s')) :
    s'.disk.path = s.disk.path ∧ s'.disk.deleteOnExit = (s.disk.deleteOnExit &&
      !((o.kind = .syscall ∨ o.kind = .linuxaio) && (o.ufs.map (·.isDevice)) == some true)) := by
  obtain ⟨k, hk, h1, h0⟩ := createFile_ok h
  have hkk : o.kind = k := by rw [h0]
  have e1 : (setQueue k (setId s)).disk.path = s.disk.path := by rw [(setQueue_fields k _).2.2]; rfl
  have e2 : (setQueue k (setId s)).disk.deleteOnExit = s.disk.deleteOnExit := by rw [(setQueue_fields k _).2.2]; rfl
  rw [hkk]
  rcases openKind_ok h1 with ⟨h2, h3, h4⟩ | ⟨_, f, s1, l, r, h2, _, _, _, _, _, _, h7⟩
  · rw [h4, e1, e2, h2]; simp
  · rw [h2]
    rcases h7 with ⟨h8, h9⟩ | ⟨h9, h10, n, _, _, h8⟩
    · rw [h8, e1, e2]
      refine ⟨rfl, ?_⟩
      by_cases hkc : k = .syscall ∨ k = .linuxaio
      · simp [(h9 hkc).1]
      · simp [hkc]
    · rw [h8]
      simp only [asDevice, Option.map_some, h10, h9]
      refine ⟨e1, by simp⟩

theorem openDisks_config {os : Os} {b : Build} {ds : List Disk} : ∀ {i : Nat} {s s' : St} {l : List FileObj},
    openDisks os b i ds s = (.ok l, s') → i + ds.length ≤ s.cfg.disks.length →
    s'.cfg.disks.length = s.cfg.disks.length ∧ (∀ (j : Nat), j < i → s'.cfg.disks[j]? = s.cfg.disks[j]?) ∧
    ∀ (j : Nat) (o : FileObj) (d : Disk), l[j]? = some o → ds[j]? = some d → ∃ d', s'.cfg.disks[i + j]? = some d' ∧ d'.path = d.path ∧
      d'.deleteOnExit = (d.deleteOnExit && !((o.kind = .syscall ∨ o.kind = .linuxaio) && (o.ufs.map (·.isDevice)) == some true)) := by
  induction ds with
  | nil => intro i s s' l h _; cases h; simp
  | cons d ds ih =>
    intro i s s' l h hlen
    unfold openDisks at h
    simp only [bind_ok, guard_ok, pure_ok] at h
    obtain ⟨o, s1, h1, l', s2, h2, rfl, rfl⟩ := h
    unfold openDisk at h1
    simp only [Prod.mk.injEq] at h1
    obtain ⟨h5, h6⟩ := createFile_disk (o := o) (s' := (createFile os b { creat := true, rdwr := true } i { s with disk := queueOf i d }).2) (by rw [← h1.1])
    obtain ⟨_, h7⟩ := createFile_ids (o := o) (s' := (createFile os b { creat := true, rdwr := true } i { s with disk := queueOf i d }).2) (by rw [← h1.1])
    have hp : (queueOf i d).path = d.path := by unfold queueOf; split <;> rfl
    have he : (queueOf i d).deleteOnExit = d.deleteOnExit := by unfold queueOf; split <;> rfl
    simp only [hp, he] at h5 h6
    have hcd : ∀ w, (Config.assignId s.cfg w).2.disks = s.cfg.disks := by
      intro w; unfold Config.assignId Config.nextDeviceId Config.updateMaxDeviceId
      split
      · rfl
      · simp only; split <;> rfl
    have hs1 : s1.cfg.disks = s.cfg.disks.set i (createFile os b { creat := true, rdwr := true } i { s with disk := queueOf i d }).2.disk := by
      rw [← h1.2]; simp only [putBack]; rw [h7, hcd]
    simp only [List.length_cons] at hlen
    obtain ⟨i1, i2, i3⟩ := ih h2 (by rw [hs1, List.length_set]; omega)
    refine ⟨by rw [i1, hs1, List.length_set], ?_, ?_⟩
    · intro j hj
      rw [i2 j (by omega), hs1, List.getElem?_set_ne (by omega)]
    · intro j o' d' hj hdj
      cases j with
      | zero =>
        simp only [List.getElem?_cons_zero, Option.some.injEq] at hj hdj
        subst hj; subst hdj
        refine ⟨_, ?_, h5, h6⟩
        rw [Nat.add_zero, i2 i (by omega), hs1, List.getElem?_set_self (by omega)]
      | succ j =>
        simp only [List.getElem?_cons_succ] at hj hdj
        have := i3 j o' d' hj hdj
        rw [show i + (j + 1) = i + 1 + j by omega]; exact this

/-- Successful construction with a lock: the lock was granted, or there is no descriptor. -/
theorem construct_locked {os : Os} {b : Build} {path : Str} {m : Mode} {s s' : St} {f : Ufs} (hn : m.noLock = false)
    (h : construct os b path m s = (.ok f, s')) : f.fd = none ∨ ∃ hist, os.setlk hist (!m.rdonly) = true := by
  have hL : ∀ {f f' : Ufs} {s s' : St}, f.mode = m → f.fd.isSome → afterOpen os f s = (.ok f', s') → ∃ hist, os.setlk hist (!m.rdonly) = true := by
    intro f f' s s' hm hfd h
    unfold afterOpen at h
    cases hf : os.fstat s.ev with
    | none => rw [hf] at h; simp [bind_ok, call_ok] at h
    | some d =>
      rw [hf] at h
      simp only [hm, hn, bind_ok, note_ok, Bool.false_eq_true, if_false] at h
      obtain ⟨_, s1, _, _, s2, h3, _⟩ := h
      unfold lock at h3
      cases hd : f.fd with
      | none => rw [hd] at hfd; cases hfd
      | some fl =>
        simp only [hd, call_ok, hm] at h3
        exact ⟨_, h3.1⟩
  unfold construct at h
  simp only at h
  split at h
  · cases h; exact .inl rfl
  · right
    cases ho : os.opened s.ev path (flagsOf b m) with
    | ok =>
      rw [ho] at h
      simp only [bind_ok, note_ok] at h
      obtain ⟨_, s1, _, h2⟩ := h
      exact hL rfl rfl h2
    | einval =>
      rw [ho] at h
      simp only at h
      split at h
      · simp only [bind_ok, note_ok] at h
        obtain ⟨_, s1, _, h2⟩ := h
        split at h2
        · simp only [bind_ok, note_ok] at h2
          obtain ⟨_, s2, _, h4⟩ := h2
          exact hL rfl rfl h4
        · simp only [bind_ok, note_ok] at h2
          obtain ⟨_, s2, _, h4⟩ := h2
          cases h4
      · simp only [bind_ok, note_ok] at h
        obtain ⟨_, s2, _, h4⟩ := h
        cases h4
    | other =>
      rw [ho] at h
      simp only [reduceCtorEq, decide_false, Bool.and_false, Bool.false_eq_true, if_false, bind_ok, note_ok] at h
      obtain ⟨_, s2, _, h4⟩ := h
      cases h4

end Foxxll.Open
