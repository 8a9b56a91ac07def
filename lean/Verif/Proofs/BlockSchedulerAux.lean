import Verif.Proofs.BlockSchedulerOffline
/-
Auxiliary lemmas for the theorems of `Verif.Props.BlockScheduler`.
-/

namespace Foxxll.Swap

variable {D : Type}

/-- An environment: the block after the largest in use; default contents 0. -/
def exE : Env Nat := { pick := fun l => l.foldr max 0 + 1, fill := fun _ => 0 }

theorem exE_fresh : ∀ l, exE.pick l ∉ l := by
  intro l hl
  have : ∀ (l : List Nat) x, x ∈ l → x ≤ l.foldr max 0 := by
    intro l
    induction l with
    | nil => intro x hx; cases hx
    | cons y l ih =>
      intro x hx
      simp only [List.foldr_cons]
      rcases List.mem_cons.1 hx with rfl | hx
      · exact Nat.le_max_left _ _
      · exact Nat.le_trans (ih x hx) (Nat.le_max_right _ _)
  have h1 := this l _ hl
  simp only [exE] at h1
  omega

instance (a : Abs D) (op : Op D) : Decidable (Allowed a op) := by
  cases op with
  | init id e =>
    cases e with
    | none =>
      exact if h : a.refs id = 0 ∧ (a.data id).isNone = true then .isTrue ⟨h.1, Option.isNone_iff_eq_none.1 h.2, fun x hx => by cases hx⟩
        else .isFalse fun hc => h ⟨hc.1, Option.isNone_iff_eq_none.2 hc.2.1⟩
    | some e =>
      exact if h : (a.refs id = 0 ∧ (a.data id).isNone = true) ∧ (a.held e).isSome = true then
        .isTrue ⟨h.1.1, Option.isNone_iff_eq_none.1 h.1.2, fun x hx => by cases hx; intro hc; rw [hc] at h; exact absurd h.2 (by simp)⟩
        else .isFalse fun hc => h ⟨⟨hc.1, Option.isNone_iff_eq_none.2 hc.2.1⟩, by
          cases hh : a.held e with
          | none => exact absurd hh (hc.2.2 e rfl)
          | some _ => rfl⟩
  | _ => unfold Allowed; infer_instance

/-- A list of allowed calls executed. -/
def play (E : Env D) (s : St D) (a : Abs D) : List (Op D) → Option (St D × Abs D × List (Res D))
  | [] => some (s, a, [])
  | op :: l =>
    if Allowed a op then
      match step E s op with
      | none => none
      | some (r, s') => (play E s' (a.next op r) l).map fun x => (x.1, x.2.1, r :: x.2.2)
    else none

theorem play_run {E : Env D} {l : List (Op D)} {s : St D} {a : Abs D} {x} (h : Run E s a) (hp : play E s a l = some x) : Run E x.1 x.2.1 := by
  induction l generalizing s a x with
  | nil => cases hp; exact h
  | cons op l ih =>
    simp only [play] at hp
    split at hp
    · rename_i ha
      split at hp
      · cases hp
      · rename_i r s' hs
        simp only [Option.map_eq_some_iff] at hp
        obtain ⟨y, h1, h2⟩ := hp
        cases h2
        have := ih (Run.step op h ha hs) h1
        exact this
    · cases hp

/-- Room for two internal blocks; blocks 0 and 1 have data in them, block 2 has none. -/
def exSt : St Nat :=
  ((play exE (init 2 1 (fun _ => 0) (fun _ => 0)) {} [.alloc, .alloc, .alloc, .acquire 0 false, .release 0 true (fun _ => 0), .acquire 1 false, .release 1 true (fun _ => 0)]).map
    (fun x => x.1)).getD (init 2 1 (fun _ => 0) (fun _ => 0))

theorem exSt_hist : Hist exE 2 exSt := by
  refine Hist.step (.release 1 true (fun _ => 0)) (Hist.step (.acquire 1 false) (Hist.step (.release 0 true (fun _ => 0)) (Hist.step (.acquire 0 false) (Hist.step .alloc
    (Hist.step .alloc (Hist.step .alloc (Hist.start 2 1 (fun _ => 0) (fun _ => 0) rfl) ?_ rfl) ?_ rfl) ?_ rfl) ?_ rfl) ?_ rfl) ?_ rfl) ?_ rfl <;>
    (intro id e hc; cases hc)

end Foxxll.Swap
