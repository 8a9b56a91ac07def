import Verif.Proofs.AheadKnown
import Verif.Props.BlockSchedulerPolicy
/-
Auxiliary lemmas for the theorems of `Verif.Props.Ahead`.
-/

namespace Foxxll.Ahead
open Foxxll.Swap (SB Env POp Elem Op Res Abs Allowed Expected exE exE_fresh)

variable {D : Type}

inductive Act (D : Type)
  | call (op : Op D)
  | start (seq : List Elem) (orc : List (List Disk))
  | stop

def act (E : Env D) (q : Nat → List Elem → Bool) : Stage D → Abs D → Act D → Option (Option (Res D) × Stage D × Abs D)
  | .online b, a, .call op => if Allowed a op then (Swap.step E b op).map fun r => (some r.1, .online r.2, a.next op r.1) else none
  | .online b, a, .start seq orc => if q b.n seq then (start E b seq orc).map fun s => (none, .ahead false s, a) else none
  | .ahead f s, a, .call op => if Allowed a op then (step E s op).map fun r => (some r.1, .ahead (f || isFlush op) r.2, a.next op r.1) else none
  | .ahead _ s, a, .stop => (toOnline s).map fun b => (none, .online b, a)
  | _, _, _ => none

def play (E : Env D) (q : Nat → List Elem → Bool) (g : Stage D) (a : Abs D) : List (Act D) → Option (Stage D × Abs D)
  | [] => some (g, a)
  | x :: l => (act E q g a x).bind fun r => play E q r.2.1 r.2.2 l

theorem act_life {E : Env D} {q : Nat → List Elem → Bool} {Q : Nat → List Elem → Prop} (hq : ∀ n l, q n l = true → Q n l) {g g' : Stage D} {a a' : Abs D} {x : Act D} {r}
    (h : Life E Q g a) (hx : act E q g a x = some (r, g', a')) : Life E Q g' a' := by
  unfold act at hx
  split at hx
  · split at hx
    · rename_i ha
      obtain ⟨y, h1, h2⟩ := Option.map_eq_some_iff.1 hx
      cases h2; exact .online _ h ha h1
    · cases hx
  · split at hx
    · rename_i ha
      obtain ⟨y, h1, h2⟩ := Option.map_eq_some_iff.1 hx
      cases h2; exact .start _ _ h (hq _ _ ha) h1
    · cases hx
  · split at hx
    · rename_i ha
      obtain ⟨y, h1, h2⟩ := Option.map_eq_some_iff.1 hx
      cases h2; exact .step _ h ha h1
    · cases hx
  · obtain ⟨y, h1, h2⟩ := Option.map_eq_some_iff.1 hx
    cases h2; exact .stop h h1
  · cases hx

theorem play_life {E : Env D} {q : Nat → List Elem → Bool} {Q : Nat → List Elem → Prop} (hq : ∀ n l, q n l = true → Q n l) (l : List (Act D)) : ∀ {g : Stage D} {a : Abs D} {y : Stage D × Abs D},
    Life E Q g a → play E q g a l = some y → Life E Q y.1 y.2 := by
  induction l with
  | nil => intro g a y h hy; cases hy; exact h
  | cons x l ih =>
    intro g a y h hy
    obtain ⟨r, h1, h2⟩ := Option.bind_eq_some_iff.1 hy
    exact ih (act_life hq h h1) h2

def readOutB : List POp → Bool
  | .extract :: _ => true
  | .acquire :: l | .acquireUninit :: l | .release :: l => readOutB l
  | _ => false
def usesB (l : List POp) : Bool := l.any fun o => o == .acquire || o == .acquireUninit || o == .deinit
def tidyB : List Elem → Bool
  | [] => true
  | x :: l => !((x.op == .release || x.op == .releaseDirty) && readOutB (callsOf l x.id) && usesB (callsOf l x.id)) && tidyB l
def plainB (n : Nat) (seq : List Elem) : Bool := seq.all (fun x => decide (x.id < n)) && tidyB seq

theorem readOutB_of {l : List POp} (h : ReadOut l) : readOutB l = true := by
  obtain ⟨u, v, rfl, h⟩ := h
  induction u with
  | nil => rfl
  | cons o u ih =>
    have := ih fun y hy => h y (List.mem_cons_of_mem _ hy)
    rcases h o (by simp) with rfl | rfl | rfl <;> exact this

theorem tidyB_tidy {l : List Elem} (h : tidyB l = true) : Tidy l := by
  intro u x v hl hx hr hu
  induction u generalizing l with
  | nil =>
    subst hl
    simp only [List.nil_append, tidyB, Bool.and_eq_true, Bool.not_eq_true', readOutB_of hr] at h
    have h1 : usesB (callsOf v x.id) = true := by
      obtain ⟨o, h1, h2⟩ := hu
      exact List.any_eq_true.2 ⟨o, h1, by simpa [or_assoc] using h2⟩
    have h2 : (x.op == .release || x.op == .releaseDirty) = true := by simpa using hx
    rw [h1, h2] at h
    exact absurd h.1 (by decide)
  | cons y u ih =>
    subst hl
    simp only [List.cons_append, tidyB, Bool.and_eq_true] at h
    exact ih h.2 rfl

theorem plainB_plain (n : Nat) (l : List Elem) (h : plainB n l = true) : Plain n l := by
  simp only [plainB, Bool.and_eq_true, List.all_eq_true, decide_eq_true_eq] at h
  exact ⟨h.1, tidyB_tidy h.2⟩
def knownB (n : Nat) (seq : List Elem) : Bool := seq.all fun x => decide (x.id < n)
theorem knownB_known (n : Nat) (l : List Elem) (h : knownB n l = true) : Known n l := by
  simpa [knownB, Known] using h

/-- A new scheduler with room for `m` internal blocks. -/
def new (m : Nat) : Stage Nat := .online (Swap.init m 1 (fun _ => 0) (fun _ => 0))
theorem new_life (Q : Nat → List Elem → Prop) (m : Nat) : Life exE Q (new m) {} := Life.new _ _ _ _

/-- Whether a list of actions leads to prefetching (or not) in a state with property `P`. -/
def okA (q : Nat → List Elem → Bool) (m : Nat) (l : List (Act Nat)) (P : Bool → St Nat → Abs Nat → Prop) [∀ f s a, Decidable (P f s a)] : Bool :=
  match play exE q (new m) {} l with
  | some (.ahead f s, a) => decide (P f s a)
  | _ => false
def okB (q : Nat → List Elem → Bool) (m : Nat) (l : List (Act Nat)) (P : Swap.St Nat → Abs Nat → Prop) [∀ b a, Decidable (P b a)] : Bool :=
  match play exE q (new m) {} l with
  | some (.online b, a) => decide (P b a)
  | _ => false

theorem okA_life {q : Nat → List Elem → Bool} {Q : Nat → List Elem → Prop} (hq : ∀ n l, q n l = true → Q n l) {m : Nat} (l : List (Act Nat)) {P : Bool → St Nat → Abs Nat → Prop}
    [∀ f s a, Decidable (P f s a)] (h : okA q m l P = true) : ∃ f s a, Life exE Q (.ahead f s) a ∧ P f s a := by
  unfold okA at h
  split at h
  · rename_i f s a hp
    exact ⟨f, s, a, play_life hq l (new_life Q m) hp, of_decide_eq_true h⟩
  · cases h

theorem okB_life {q : Nat → List Elem → Bool} {Q : Nat → List Elem → Prop} (hq : ∀ n l, q n l = true → Q n l) {m : Nat} (l : List (Act Nat)) {P : Swap.St Nat → Abs Nat → Prop}
    [∀ b a, Decidable (P b a)] (h : okB q m l P = true) : ∃ b a, Life exE Q (.online b) a ∧ P b a := by
  unfold okB at h
  split at h
  · rename_i b a hp
    exact ⟨b, a, play_life hq l (new_life Q m) hp, of_decide_eq_true h⟩
  · cases h

instance (s : St D) (op : Op D) : Decidable (Predicted s op) :=
  if h : s.pred.head?.map (fun x => (x.op, x.id)) = op.recorded ∧ s.pred ≠ [] then
    .isTrue (by
      obtain ⟨h1, h2⟩ := h
      cases hp : s.pred with
      | nil => exact absurd hp h2
      | cons x l => rw [hp] at h1; exact ⟨x, l, hp, h1.symm⟩)
  else .isFalse (by
    rintro ⟨x, l, h1, h2⟩
    exact h ⟨by rw [h1, h2]; rfl, by rw [h1]; simp⟩)

end Foxxll.Ahead
