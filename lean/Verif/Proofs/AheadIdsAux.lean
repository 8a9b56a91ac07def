import Verif.Proofs.AheadIds
import Verif.Proofs.AheadAux

/-
Concrete histories with identifiers, for the examples.
-/
namespace Foxxll.Ahead
open Foxxll.Swap (SB Env POp Elem Op Res Abs Allowed exE)

variable {D : Type}

def actI (E : Env D) (q : Nat → List Elem → Bool) : Stage D → Abs D → List Nat → Act D → Option (Stage D × Abs D × List Nat)
  | .online b, a, used, .call op =>
    if Allowed a op ∧ Swap.usedOk used op = true then (Swap.step E b op).map fun r => (.online r.2, a.next op r.1, Swap.Held used op r.1) else none
  | .online b, a, used, .start seq orc => if q b.n seq then (start E b seq orc).map fun s => (.ahead false s, a, used) else none
  | .ahead f s, a, used, .call op =>
    if Allowed a op ∧ Swap.usedOk used op = true then (step E s op).map fun r => (.ahead (f || isFlush op) r.2, a.next op r.1, Swap.Held used op r.1) else none
  | .ahead _ s, a, used, .stop => (toOnline s).map fun b => (.online b, a, used)
  | _, _, _, _ => none

def playI (E : Env D) (q : Nat → List Elem → Bool) (g : Stage D) (a : Abs D) (used : List Nat) : List (Act D) → Option (Stage D × Abs D × List Nat)
  | [] => some (g, a, used)
  | x :: l => (actI E q g a used x).bind fun r => playI E q r.1 r.2.1 r.2.2 l

theorem actI_life {E : Env D} {q : Nat → List Elem → Bool} {Q : Nat → List Elem → Prop} (hq : ∀ n l, q n l = true → Q n l) {g : Stage D} {a : Abs D} {used : List Nat} {x : Act D} {r}
    (h : LifeIds E Q g a used) (hx : actI E q g a used x = some r) : LifeIds E Q r.1 r.2.1 r.2.2 := by
  unfold actI at hx
  split at hx
  · split at hx
    · rename_i ha
      obtain ⟨y, h1, h2⟩ := Option.map_eq_some_iff.1 hx
      cases h2; exact .online _ h (Swap.usedOk_ok ha.2) ha.1 h1
    · cases hx
  · split at hx
    · rename_i ha
      obtain ⟨y, h1, h2⟩ := Option.map_eq_some_iff.1 hx
      cases h2; exact .start _ _ h (hq _ _ ha) h1
    · cases hx
  · split at hx
    · rename_i ha
      obtain ⟨y, h1, h2⟩ := Option.map_eq_some_iff.1 hx
      cases h2; exact .step _ h (Swap.usedOk_ok ha.2) ha.1 h1
    · cases hx
  · obtain ⟨y, h1, h2⟩ := Option.map_eq_some_iff.1 hx
    cases h2; exact .stop h h1
  · cases hx

theorem playI_life {E : Env D} {q : Nat → List Elem → Bool} {Q : Nat → List Elem → Prop} (hq : ∀ n l, q n l = true → Q n l) (l : List (Act D)) :
    ∀ {g : Stage D} {a : Abs D} {used : List Nat} {y}, LifeIds E Q g a used → playI E q g a used l = some y → LifeIds E Q y.1 y.2.1 y.2.2 := by
  induction l with
  | nil => intro g a used y h hy; cases hy; exact h
  | cons x l ih =>
    intro g a used y h hy
    obtain ⟨r, h1, h2⟩ := Option.bind_eq_some_iff.1 hy
    exact ih (actI_life hq h h1) h2

def okI (q : Nat → List Elem → Bool) (m : Nat) (l : List (Act Nat)) (P : St Nat → Abs Nat → List Nat → Prop) [∀ s a u, Decidable (P s a u)] : Bool :=
  match playI exE q (new m) {} [] l with
  | some (.ahead _ s, a, u) => decide (P s a u)
  | _ => false

theorem okI_life {q : Nat → List Elem → Bool} {Q : Nat → List Elem → Prop} (hq : ∀ n l, q n l = true → Q n l) {m : Nat} (l : List (Act Nat)) {P : St Nat → Abs Nat → List Nat → Prop}
    [∀ s a u, Decidable (P s a u)] (h : okI q m l P = true) : ∃ f s a u, LifeIds exE Q (.ahead f s) a u ∧ P s a u := by
  unfold okI at h
  split at h
  · rename_i f s a u hp
    exact ⟨f, s, a, u, playI_life hq l (LifeIds.new _ _ _ _) hp, of_decide_eq_true h⟩
  · cases h

/-- Calls with prefetching. -/
def playC (E : Env D) : List (Op D) → St D → List Nat → List (Op D × Res D) → Option (St D × List Nat × List (Op D × Res D))
  | [], s, used, l => some (s, used, l)
  | op :: ops, s, used, l =>
    if Swap.usedOk used op then
      match step E s op with
      | some (r, s') => playC E ops s' (Swap.Held used op r) (l ++ [(op, r)])
      | none => none
    else none

theorem playC_run {E : Env D} {s0 : St D} {used0 : List Nat} (ops : List (Op D)) : ∀ {s used l x}, CallRun E s0 used0 s used l → playC E ops s used l = some x →
    CallRun E s0 used0 x.1 x.2.1 x.2.2 := by
  induction ops with
  | nil => intro s used l x h hp; cases hp; exact h
  | cons op ops ih =>
    intro s used l x h hp
    simp only [playC] at hp
    split at hp
    · rename_i hc
      split at hp
      · rename_i r s' hs
        exact ih (.step op h (Swap.usedOk_ok hc) hs) hp
      · cases hp
    · cases hp

/-- Calls, a simulation, and calls with prefetching with the recorded sequence. -/
def thruA (orc : List (List Disk)) (a b c : List (Op Nat)) (P : List Nat → List Nat → List (Op Nat × Res Nat) → List (Op Nat × Res Nat) → Bool) : Bool :=
  match Swap.playOps exE a (Swap.init 2 1 (fun _ => 0) (fun _ => 0)) [] [] with
  | none => false
  | some (s0, u0, _) =>
    match Swap.playSim exE b (Swap.toSim s0) (Swap.Sim.start s0) u0 [] with
    | none => false
    | some (s1, m, u1, l1) =>
      match start exE s1 m.seq orc with
      | none => false
      | some t =>
        match playC exE c t u1 [] with
        | none => false
        | some (_, _, l2) => P u0 u1 l1 l2

theorem thruA_ok {orc : List (List Disk)} {a b c : List (Op Nat)} {P : List Nat → List Nat → List (Op Nat × Res Nat) → List (Op Nat × Res Nat) → Bool} (h : thruA orc a b c P = true) :
    ∃ s0 u0 s1 m u1 l1 t s2 u2 l2, Swap.IdHist exE s0 u0 ∧ Swap.SimRun exE s0 u0 s1 m u1 l1 ∧ start exE s1 m.seq orc = some t ∧ CallRun exE t u1 s2 u2 l2 ∧ P u0 u1 l1 l2 = true := by
  unfold thruA at h
  split at h
  · cases h
  · rename_i s0 u0 _ h1
    split at h
    · cases h
    · rename_i s1 m u1 l1 h2
      split at h
      · cases h
      · rename_i t ht
        split at h
        · cases h
        · rename_i s2 u2 l2 h3
          exact ⟨s0, u0, s1, m, u1, l1, t, s2, u2, l2, Swap.playOps_hist a h1, Swap.playSim_run b .start h2, ht, playC_run c .start h3, h⟩

end Foxxll.Ahead
