import Verif.Proofs.LocksRun
/-
Auxiliary lemmas for the theorems of `Verif.Props.Locks`.
-/
namespace Foxxll.Locks
open Ch

/-- The thread is about to wait for a mutex of the other thread. -/
def waitsB (t u : Nat) (s : St) : Bool := match s.rem t with
  | .lock m :: _ => s.holder m == some u
  | _ => false

theorem waitsB_sound {t u : Nat} {s : St} (h : waitsB t u s = true) : WaitsFor s t u := by
  unfold waitsB at h
  split at h
  · rename_i m l hr; exact ⟨m, l, hr, by simpa using h⟩
  · cases h

/-- The thread waits for `c` with `m` locked. -/
def atB (t : Nat) (c : Cond) (m : Mx) (s : St) : Bool := (s.rem t).head? == some (.wait c) && s.holder m == some t

theorem head_cons {l : List Act} {a : Act} (h : l.head? = some a) : ∃ k, l = a :: k := by
  cases l with
  | nil => cases h
  | cons b k => simp at h; exact ⟨k, by rw [h]⟩

theorem atB_sound {t : Nat} {c : Cond} {m : Mx} {s : St} (h : atB t c m s = true) : (∃ l, s.rem t = .wait c :: l) ∧ s.holder m = some t := by
  simp only [atB, Bool.and_eq_true, beq_iff_eq] at h
  exact ⟨head_cons h.1, h.2⟩

/-- Two threads are about to access `x`. -/
def raceB (x : Fld) (s : St) : Bool := (s.rem 0).head? == some (.wr x) && ((s.rem 1).head? == some (.rd x) || (s.rem 1).head? == some (.wr x))

theorem raceB_sound {x : Fld} {s : St} (h : raceB x s = true) : Race s x := by
  simp only [raceB, Bool.and_eq_true, Bool.or_eq_true, beq_iff_eq] at h
  refine ⟨0, 1, by decide, head_cons h.1, ?_⟩
  rcases h.2 with h | h
  · exact .inl (head_cons h)
  · exact .inr (head_cons h)

theorem race_of {l k : List Act} (x : Fld) (hl : thread (fun _ => True) l) (hk : thread (fun _ => True) k) (ts : List Nat)
    (h : ((exec (two l k) ts).map (raceB x)).getD false = true) : ∃ s, Reach (fun _ => True) s ∧ Race s x := by
  obtain ⟨s, hr, hs⟩ := run_two hl hk ts h
  exact ⟨s, hr, raceB_sound hs⟩

/-- A worker that serves request 0, whose transfer fails. -/
def failRun : List Act := actions 60 (.call (.workerQ 5)) [r, l, r, n 0, n 0, n 0, l, l, l, l, l, l, r, l, l, l, l, l, l]

theorem worker_fail : thread (fun _ => True) failRun := worker_thread 60 5 _

end Foxxll.Locks
