import Verif.Proofs.Locks
/-
Concrete runs for the examples of C117 and C118.
-/
namespace Foxxll.Locks

/-- Choices in a program. -/
inductive Ch
  | l | r
  | n (k : Nat)
  | f (g : Fn)

/-- A sequence of actions of a program with given choices. -/
def ev (B : Fn → Bool) : Nat → P → List Ch → Option (List Act × List Ch)
  | 0, _, _ => none
  | _ + 1, .nil, cs => some ([], cs)
  | _ + 1, .rd x, cs => some ([.rd x], cs)
  | _ + 1, .wr x, cs => some ([.wr x], cs)
  | _ + 1, .wait c, cs => some ([.wait c], cs)
  | n + 1, .seq p q, cs =>
    match ev B n p cs with
    | some (l, cs) => match ev B n q cs with
      | some (k, cs) => some (l ++ k, cs)
      | none => none
    | none => none
  | n + 1, .alt p _, .l :: cs => ev B n p cs
  | n + 1, .alt _ q, .r :: cs => ev B n q cs
  | _ + 1, .star _, .l :: cs => some ([], cs)
  | n + 1, .star p, .r :: cs =>
    match ev B n p cs with
    | some (l, cs) => match ev B n (.star p) cs with
      | some (k, cs) => some (l ++ k, cs)
      | none => none
    | none => none
  | n + 1, .any p, .n k :: cs => ev B n (p k) cs
  | n + 1, .locked m p, cs =>
    match ev B n p cs with
    | some (l, cs) => some (.lock m :: l ++ [.unlock m], cs)
    | none => none
  | n + 1, .call f, cs => if B f then ev B n (body f) cs else none
  | _ + 1, .user, .l :: cs => some ([], cs)
  | n + 1, .user, .f g :: cs =>
    if api g && B g then
      match ev B n (body g) cs with
      | some (l, cs) => match ev B n .user cs with
        | some (k, cs) => some (l ++ k, cs)
        | none => none
      | none => none
    else none
  | _ + 1, _, _ => none

theorem ev_sound {B : Fn → Bool} : ∀ (n : Nat) (p : P) (cs : List Ch) (l : List Act) (cs' : List Ch), ev B n p cs = some (l, cs') → Tr (fun f => B f = true) p l := by
  intro n
  induction n with
  | zero => intro p cs l cs' h; simp [ev] at h
  | succ n ih =>
    intro p cs l cs' h
    unfold ev at h
    split at h
    · rename_i e; cases e
    · cases h; exact .nil
    · cases h; exact .rd
    · cases h; exact .wr
    · cases h; exact .wait
    · rename_i e; cases e
      split at h
      · rename_i h1
        split at h
        · rename_i h2
          cases h
          exact .seq (ih _ _ _ _ h1) (ih _ _ _ _ h2)
        · cases h
      · cases h
    · rename_i e; cases e; exact .left (ih _ _ _ _ h)
    · rename_i e; cases e; exact .right (ih _ _ _ _ h)
    · cases h; exact .done
    · rename_i e; cases e
      split at h
      · rename_i h1
        split at h
        · rename_i h2
          cases h
          exact .again (ih _ _ _ _ h1) (ih _ _ _ _ h2)
        · cases h
      · cases h
    · rename_i e; cases e; exact .any _ (ih _ _ _ _ h)
    · rename_i e; cases e
      split at h
      · rename_i h1
        cases h
        exact .locked (ih _ _ _ _ h1)
      · cases h
    · rename_i e; cases e
      split at h
      · rename_i hb; exact .call hb (ih _ _ _ _ h)
      · cases h
    · cases h; exact .user0
    · rename_i e; cases e
      split at h
      · rename_i ha
        split at h
        · rename_i h1
          split at h
          · rename_i h2
            cases h
            rw [Bool.and_eq_true] at ha; exact .user ha.1 (.call ha.2 (ih _ _ _ _ h1)) (ih _ _ _ _ h2)
          · cases h
        · cases h
      · cases h
    · cases h

/-- A step of thread `t`. -/
def stepF (s : St) (t : Nat) : Option St :=
  match s.rem t with
  | [] => none
  | .lock m :: l =>
    if s.holder m = none then some ⟨fun u => if u = t then l else s.rem u, fun k => if k = m then some t else s.holder k⟩ else none
  | .unlock m :: l => some ⟨fun u => if u = t then l else s.rem u, fun k => if k = m then none else s.holder k⟩
  | .rd _ :: l => some ⟨fun u => if u = t then l else s.rem u, s.holder⟩
  | .wr _ :: l => some ⟨fun u => if u = t then l else s.rem u, s.holder⟩
  | .wait _ :: l => some ⟨fun u => if u = t then l else s.rem u, s.holder⟩

theorem stepF_sound {s s' : St} {t : Nat} (h : stepF s t = some s') : Step t s s' := by
  unfold stepF at h
  split at h
  · cases h
  · rename_i hr
    split at h
    · rename_i hh; cases h; exact .lock hr hh
    · cases h
  · rename_i hr; cases h; exact .unlock hr
  · rename_i hr; cases h; exact .rd hr
  · rename_i hr; cases h; exact .wr hr
  · rename_i hr; cases h; exact .wait hr

def exec (s : St) : List Nat → Option St
  | [] => some s
  | t :: ts => match stepF s t with
    | some s' => exec s' ts
    | none => none

theorem exec_sound {A : Fn → Prop} {ts : List Nat} : ∀ {s s' : St}, Reach A s → exec s ts = some s' → Reach A s' := by
  induction ts with
  | nil => intro s s' h e; cases e; exact h
  | cons t ts ih =>
    intro s s' h e
    simp only [exec] at e
    split at e
    · rename_i h1; exact ih (.next t h (stepF_sound h1)) e
    · cases e

/-- Two threads with given actions. -/
def two (l k : List Act) : St := ⟨fun t => if t = 0 then l else if t = 1 then k else [], fun _ => none⟩

theorem two_reach {A : Fn → Prop} {l k : List Act} (hl : thread A l) (hk : thread A k) : Reach A (two l k) := by
  refine .start fun t => ?_
  split
  · exact hl
  · split
    · exact hk
    · exact .inl .user0

/-- Actions of a user who calls only functions of `B`. -/
def actionsB (B : Fn → Bool) (n : Nat) (p : P) (cs : List Ch) : List Act := ((ev B n p cs).map (·.1)).getD []

/-- Actions of a user. -/
def actions (n : Nat) (p : P) (cs : List Ch) : List Act := actionsB (fun _ => true) n p cs

theorem user_threadB (B : Fn → Bool) (n : Nat) (cs : List Ch) : thread (fun f => B f = true) (actionsB B n .user cs) := by
  unfold actionsB
  cases h : ev B n .user cs with
  | none => exact .inl .user0
  | some x => exact .inl (ev_sound n _ cs x.1 x.2 (by rw [h]))

theorem user_thread (n : Nat) (cs : List Ch) : thread (fun _ => True) (actions n .user cs) := (user_threadB _ n cs).mono fun _ _ => trivial

theorem worker_thread (n q : Nat) (cs : List Ch) : thread (fun _ => True) (actions n (.call (.workerQ q)) cs) := by
  unfold actions actionsB
  cases h : ev (fun _ => true) n (.call (.workerQ q)) cs with
  | none => exact .inl .user0
  | some x => exact .inr ⟨q, .inr (.inl ((ev_sound n _ cs x.1 x.2 (by rw [h])).mono fun _ _ => trivial))⟩

/-- A run of two threads that leads to a state with a checked property. -/
theorem run_two {A : Fn → Prop} {l k : List Act} (hl : thread A l) (hk : thread A k) (ts : List Nat) {φ : St → Bool}
    (h : ((exec (two l k) ts).map φ).getD false = true) : ∃ s, Reach A s ∧ φ s = true := by
  cases he : exec (two l k) ts with
  | none => rw [he] at h; cases h
  | some s => rw [he] at h; exact ⟨s, exec_sound (two_reach hl hk) he, h⟩

end Foxxll.Locks
