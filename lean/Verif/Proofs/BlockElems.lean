/-
Lemmas about the members of typed blocks.
-/
import Verif.Spec.BlockElems
import Verif.Proofs.Arith
import Verif.Props.Arith

namespace Foxxll.BlockElems

open Foxxll.Arith (TParams)

theorem peek_length (m : Bytes) (a len : Nat) : (peek m a len).length = len := by simp [peek]

theorem peek_get (m : Bytes) (a len j : Nat) (h : j < len) : (peek m a len)[j]'(by rw [peek_length]; exact h) = m (a + j) := by
  simp [peek]

theorem peek_congr {m m' : Bytes} {a a' len : Nat} (h : ∀ j, j < len → m (a + j) = m' (a' + j)) :
    peek m a len = peek m' a' len := by
  unfold peek
  apply List.map_congr_left
  intro j hj
  exact h j (List.mem_range.1 hj)

theorem poke_out {m : Bytes} {a x : Nat} {v : List Nat} (h : x < a ∨ a + v.length ≤ x) : poke m a v x = m x := by
  unfold poke
  split
  · rename_i hle
    rw [List.getD_eq_getElem?_getD, List.getElem?_eq_none (by omega)]
    rfl
  · rfl

theorem poke_in {m : Bytes} {a j : Nat} {v : List Nat} (h : j < v.length) : poke m a v (a + j) = v[j] := by
  unfold poke
  rw [if_pos (by omega), Nat.add_sub_cancel_left, List.getD_eq_getElem?_getD, List.getElem?_eq_getElem h]
  rfl

theorem peek_poke_same (m : Bytes) (a : Nat) (v : List Nat) : peek (poke m a v) a v.length = v := by
  apply List.ext_getElem
  · exact peek_length _ _ _
  · intro j h1 h2
    rw [peek_get _ _ _ _ h2, poke_in h2]

theorem peek_poke_out {m : Bytes} {a b len : Nat} {v : List Nat} (h : b + len ≤ a ∨ a + v.length ≤ b) :
    peek (poke m a v) b len = peek m b len := by
  apply peek_congr
  intro j hj
  exact poke_out (by omega)

/-- Bytes of a stored block, moved as a whole. -/
theorem peek_poke_peek {m g : Bytes} {a b raw o len : Nat} (h : o + len ≤ raw) :
    peek (poke m a (peek g b raw)) (a + o) len = peek g (b + o) len := by
  apply peek_congr
  intro j hj
  rw [Nat.add_assoc, poke_in (by rw [peek_length]; omega), peek_get _ _ _ _ (by omega), Nat.add_assoc]

theorem exists_iff (p : TParams) (n : Nat) (q : Part) : q.exists p n = true ↔ q.Of p n := by
  cases q <;> simp only [Part.exists, Part.Of, decide_eq_true_eq]
  omega

theorem mul_sep {i j s : Nat} (h : i < j) : i * s + s ≤ j * s := by
  have : (i + 1) * s ≤ j * s := Nat.mul_le_mul_right _ h
  rwa [Nat.add_mul, Nat.one_mul] at this

/-- The array is well formed: the instantiation compiles. -/
structure Good (A : Arr) : Prop where
  aM : 0 < A.p.aM
  acc : A.p.accept = some (A.n, A.f)

namespace Good

variable {A : Arr}

theorem facts (h : Good A) : A.n * A.p.s ≤ A.p.refOff A.n ∧ A.p.refOff A.n + 16 * A.p.nref ≤ A.p.infoOff A.n ∧
    A.p.infoOff A.n + A.p.m + A.f ≤ A.p.raw := by
  obtain ⟨a, b, c, _⟩ := Arith.C47_layout A.p A.n A.f h.aM h.acc
  exact ⟨a, b, c⟩

theorem inside (h : Good A) {q : Part} (hq : q.Of A.p A.n) : q.off A.p A.n + q.len A.p ≤ A.p.raw := by
  obtain ⟨a, b, c⟩ := h.facts
  cases q with
  | elem i => have := mul_sep (s := A.p.s) hq; simp only [Part.off, Part.len]; omega
  | ref i => have := mul_sep (s := 16) hq; simp only [Part.off, Part.len]; omega
  | info => simp only [Part.off, Part.len]; omega

theorem apart (h : Good A) {q r : Part} (hq : q.Of A.p A.n) (hr : r.Of A.p A.n) (hne : q ≠ r) :
    q.off A.p A.n + q.len A.p ≤ r.off A.p A.n ∨ r.off A.p A.n + r.len A.p ≤ q.off A.p A.n := by
  obtain ⟨a, b, c⟩ := h.facts
  cases q with
  | elem i =>
    have e1 := mul_sep (s := A.p.s) hq
    cases r with
    | elem j =>
      rcases Nat.lt_or_gt_of_ne (show i ≠ j from fun e => hne (by rw [e])) with hl | hl
      · exact .inl (mul_sep hl)
      · exact .inr (mul_sep hl)
    | ref j => simp only [Part.off, Part.len]; omega
    | info => simp only [Part.off, Part.len]; omega
  | ref i =>
    have e1 := mul_sep (s := 16) hq
    cases r with
    | elem j => have e2 := mul_sep (s := A.p.s) hr; simp only [Part.off, Part.len]; omega
    | ref j =>
      simp only [Part.off, Part.len]
      have : i ≠ j := fun e => hne (by rw [e])
      omega
    | info => simp only [Part.off, Part.len]; omega
  | info =>
    cases r with
    | elem j => have e2 := mul_sep (s := A.p.s) hr; simp only [Part.off, Part.len]; omega
    | ref j => have e2 := mul_sep (s := 16) hr; simp only [Part.off, Part.len]; omega
    | info => exact absurd rfl hne

theorem member (_h : Good A) {q : Part} (hq : q.Of A.p A.n) {j : Nat} (hj : j < q.len A.p) :
    isMember A.p A.n A.f (q.off A.p A.n + j) = true := by
  unfold isMember
  simp only [Bool.or_eq_true, decide_eq_true_eq]
  cases q with
  | elem i => have := mul_sep (s := A.p.s) hq; simp only [Part.off, Part.len] at hj ⊢; omega
  | ref i => have := mul_sep (s := 16) hq; simp only [Part.off, Part.len] at hj ⊢; omega
  | info => simp only [Part.off, Part.len] at hj ⊢; omega

end Good

theorem addr_sep {A : Arr} {k l : Nat} (h : k < l) : A.addr k + A.p.raw ≤ A.addr l := by
  have := mul_sep (s := A.p.raw) h
  unfold Arr.addr
  omega

theorem addr_ne {A : Arr} {k l : Nat} (h : k ≠ l) : A.addr k + A.p.raw ≤ A.addr l ∨ A.addr l + A.p.raw ≤ A.addr k := by
  rcases Nat.lt_or_gt_of_ne h with hl | hl
  · exact .inl (addr_sep hl)
  · exact .inr (addr_sep hl)

/-- The knowledge agrees with memory and file. -/
structure Rel (A : Arr) (K : Know) (s : St) : Prop where
  mem : ∀ k q w, k < A.count → q.Of A.p A.n → K.val k q = some w → peek s.mem (A.addr k + q.off A.p A.n) (q.len A.p) = w
  file : ∀ o q w, q.Of A.p A.n → K.disk o q = some w → peek s.file (o + q.off A.p A.n) (q.len A.p) = w

theorem peek_copy {A : Arr} (h : Good A) (m : Bytes) (d c : Nat) {q : Part} (hq : q.Of A.p A.n) :
    peek (copyBlock A.p A.n A.f m (A.addr d) (A.addr c)) (A.addr d + q.off A.p A.n) (q.len A.p) =
      peek m (A.addr c + q.off A.p A.n) (q.len A.p) := by
  have hi := h.inside hq
  apply peek_congr
  intro j hj
  unfold copyBlock
  have e : A.addr d + q.off A.p A.n + j - A.addr d = q.off A.p A.n + j := by omega
  rw [e, if_pos ⟨by omega, by omega, h.member hq hj⟩, Nat.add_assoc]

theorem copy_out {p : TParams} {n f : Nat} {m : Bytes} {d c x : Nat} (h : x < d ∨ d + p.raw ≤ x) :
    copyBlock p n f m d c x = m x := by
  unfold copyBlock
  rw [if_neg (by omega)]

theorem peek_copy_out {A : Arr} {m : Bytes} {d c a len : Nat} (h : a + len ≤ d ∨ d + A.p.raw ≤ a) :
    peek (copyBlock A.p A.n A.f m d c) a len = peek m a len := by
  apply peek_congr
  intro j hj
  exact copy_out (by omega)

theorem sizeOk_iff (p : TParams) (b : Bid) : sizeOk p b = true ↔ ∀ z, b.size = some z → p.raw ≤ z := by
  unfold sizeOk
  cases b.size with
  | none => simp
  | some z => simp

theorem step_allowed {A : Arr} (s : St) (op : Op) : Allowed A op ↔ ∃ s' out, step A s op = .ok s' out := by
  cases op with
  | set k q v =>
    unfold step Allowed
    simp only [← exists_iff]
    by_cases h : k < A.count ∧ q.exists A.p A.n = true ∧ v.length = q.len A.p
    · rw [if_pos h]; exact ⟨fun _ => ⟨_, _, rfl⟩, fun _ => h⟩
    · rw [if_neg h]; exact ⟨fun e => absurd e h, fun ⟨_, _, e⟩ => nomatch e⟩
  | get k q =>
    unfold step Allowed
    simp only [← exists_iff]
    by_cases h : k < A.count ∧ q.exists A.p A.n = true
    · rw [if_pos h]; exact ⟨fun _ => ⟨_, _, rfl⟩, fun _ => h⟩
    · rw [if_neg h]; exact ⟨fun e => absurd e h, fun ⟨_, _, e⟩ => nomatch e⟩
  | copy d c =>
    unfold step Allowed
    by_cases h : d < A.count ∧ c < A.count
    · simp only
      rw [if_pos h]; exact ⟨fun _ => ⟨_, _, rfl⟩, fun _ => h⟩
    · simp only
      rw [if_neg h]; exact ⟨fun e => absurd e h, fun ⟨_, _, e⟩ => nomatch e⟩
  | write k b =>
    unfold step Allowed
    simp only [← sizeOk_iff]
    by_cases h : k < A.count
    · rw [if_pos h]
      by_cases h2 : sizeOk A.p b = true
      · rw [if_pos h2]; exact ⟨fun _ => ⟨_, _, rfl⟩, fun _ => ⟨h, h2⟩⟩
      · rw [if_neg h2]; exact ⟨fun e => absurd e.2 h2, fun ⟨_, _, e⟩ => nomatch e⟩
    · rw [if_neg h]; exact ⟨fun e => absurd e.1 h, fun ⟨_, _, e⟩ => nomatch e⟩
  | read k b =>
    unfold step Allowed
    simp only [← sizeOk_iff]
    by_cases h : k < A.count
    · rw [if_pos h]
      by_cases h2 : sizeOk A.p b = true
      · rw [if_pos h2]; exact ⟨fun _ => ⟨_, _, rfl⟩, fun _ => ⟨h, h2⟩⟩
      · rw [if_neg h2]; exact ⟨fun e => absurd e.2 h2, fun ⟨_, _, e⟩ => nomatch e⟩
    · rw [if_neg h]; exact ⟨fun e => absurd e.1 h, fun ⟨_, _, e⟩ => nomatch e⟩

theorem step_sound {A : Arr} (h : Good A) {K : Know} {s s' : St} {op : Op} {out : List Nat} (hr : Rel A K s)
    (hs : step A s op = .ok s' out) : K.Right (op, out) ∧ Rel A (K.after A.p.raw op) s' := by
  cases op with
  | set k q v =>
    unfold step at hs
    simp only at hs
    split at hs
    · rename_i hc
      obtain ⟨hk, hq, hv⟩ := hc
      rw [exists_iff] at hq
      injection hs with e1 e2
      subst e1; subst e2
      refine ⟨rfl, ⟨?_, hr.file⟩⟩
      intro k' q' w hk' hq' hw
      simp only [Know.after] at hw
      by_cases he : k' = k ∧ q' = q
      · rw [if_pos he] at hw
        obtain ⟨rfl, rfl⟩ := he
        injection hw with hw
        subst hw
        dsimp only
        rw [← hv]
        exact peek_poke_same _ _ _
      · rw [if_neg he] at hw
        rw [← hr.mem k' q' w hk' hq' hw]
        apply peek_poke_out
        rw [hv]
        have i1 := h.inside hq
        have i2 := h.inside hq'
        by_cases hkk : k' = k
        · subst hkk
          have := h.apart hq hq' (fun e => he ⟨rfl, e.symm⟩)
          omega
        · have := addr_ne (A := A) hkk
          omega
    · exact nomatch hs
  | get k q =>
    unfold step at hs
    simp only at hs
    split at hs
    · rename_i hc
      injection hs with e1 e2
      subst e1; subst e2
      exact ⟨fun w hw => hr.mem k q w hc.1 ((exists_iff _ _ _).1 hc.2) hw, hr⟩
    · exact nomatch hs
  | copy d c =>
    unfold step at hs
    simp only at hs
    split at hs
    · rename_i hc
      injection hs with e1 e2
      subst e1; subst e2
      refine ⟨rfl, ⟨?_, hr.file⟩⟩
      intro k' q w hk' hq hw
      simp only [Know.after] at hw
      dsimp only
      by_cases he : k' = d
      · rw [if_pos he] at hw
        subst he
        rw [peek_copy h _ _ _ hq]
        exact hr.mem c q w hc.2 hq hw
      · rw [if_neg he] at hw
        rw [← hr.mem k' q w hk' hq hw]
        have := addr_ne (A := A) he
        have := h.inside hq
        exact peek_copy_out (by omega)
    · exact nomatch hs
  | write k b =>
    unfold step at hs
    simp only at hs
    split at hs
    · rename_i hk
      split at hs
      · injection hs with e1 e2
        subst e1; subst e2
        refine ⟨rfl, ⟨hr.mem, ?_⟩⟩
        intro o q w hq hw
        simp only [Know.after] at hw
        have hi := h.inside hq
        dsimp only
        by_cases he : o = b.off
        · rw [if_pos he] at hw
          subst he
          rw [peek_poke_peek hi]
          exact hr.mem k q w hk hq hw
        · rw [if_neg he] at hw
          split at hw
          · exact nomatch hw
          · rename_i hov
            rw [← hr.file o q w hq hw]
            apply peek_poke_out
            rw [peek_length]
            omega
      · exact nomatch hs
    · exact nomatch hs
  | read k b =>
    unfold step at hs
    simp only at hs
    split at hs
    · rename_i hk
      split at hs
      · injection hs with e1 e2
        subst e1; subst e2
        refine ⟨rfl, ⟨?_, hr.file⟩⟩
        intro k' q w hk' hq hw
        simp only [Know.after] at hw
        have hi := h.inside hq
        dsimp only
        by_cases he : k' = k
        · rw [if_pos he] at hw
          subst he
          rw [peek_poke_peek hi]
          exact hr.file b.off q w hq hw
        · rw [if_neg he] at hw
          rw [← hr.mem k' q w hk' hq hw]
          apply peek_poke_out
          rw [peek_length]
          have := addr_ne (A := A) he
          omega
      · exact nomatch hs
    · exact nomatch hs

theorem run_sound {A : Arr} (h : Good A) : ∀ (ops : List Op) (K : Know) (s : St), Rel A K s →
    Follows A.p.raw K (run A s ops).1
  | [], _, _, _ => trivial
  | op :: ops, K, s, hr => by
    unfold run
    split
    · rename_i s' out hs
      obtain ⟨h1, h2⟩ := step_sound h hr hs
      exact ⟨h1, run_sound h ops _ s' h2⟩
    · trivial

theorem run_allowed {A : Arr} : ∀ (ops : List Op) (s : St),
    ((∀ op ∈ ops, Allowed A op) ↔ (run A s ops).2.isSome = true) ∧
    (∃ rest, ops = (run A s ops).1.map (·.1) ++ rest ∧ ((run A s ops).2.isSome = true → rest = [])) ∧
    ((run A s ops).2 = none → ∃ op rest, ops = (run A s ops).1.map (·.1) ++ op :: rest ∧ ¬ Allowed A op)
  | [], _ => ⟨by simp [run], ⟨[], by simp [run]⟩, by simp [run]⟩
  | op :: ops, s => by
    by_cases ha : Allowed A op
    · obtain ⟨s', out, hs⟩ := (step_allowed s op).1 ha
      obtain ⟨i1, ⟨rest, i2, i3⟩, i4⟩ := run_allowed ops s'
      have e : run A s (op :: ops) = ((op, out) :: (run A s' ops).1, (run A s' ops).2) := by
        rw [run]; rw [hs]
      rw [e]
      refine ⟨?_, ⟨rest, by simp only [List.map_cons, List.cons_append]; rw [← i2], i3⟩, ?_⟩
      · rw [← i1]
        simp [ha]
      · intro hn
        obtain ⟨o, r, j1, j2⟩ := i4 hn
        exact ⟨o, r, by simp only [List.map_cons, List.cons_append]; rw [← j1], j2⟩
    · have e : run A s (op :: ops) = ([], none) := by
        rw [run]
        split
        · rename_i s' out hs
          exact absurd ((step_allowed s op).2 ⟨s', out, hs⟩) ha
        · rfl
      rw [e]
      refine ⟨?_, ⟨op :: ops, by simp, by simp⟩, fun _ => ⟨op, ops, by simp, ha⟩⟩
      simp [ha]

theorem step_frame {A : Arr} (h : Good A) {s s' : St} {op : Op} {out : List Nat} (hs : step A s op = .ok s' out) :
    (∀ x, x < A.base ∨ A.base + A.count * A.p.raw ≤ x → s'.mem x = s.mem x) ∧
    (∀ y, (∀ k b, op = .write k b → y < b.off ∨ b.off + A.p.raw ≤ y) → s'.file y = s.file y) := by
  have hin : ∀ k, k < A.count → A.base ≤ A.addr k ∧ A.addr k + A.p.raw ≤ A.base + A.count * A.p.raw := by
    intro k hk
    have := mul_sep (s := A.p.raw) hk
    unfold Arr.addr
    omega
  cases op with
  | set k q v =>
    unfold step at hs
    simp only at hs
    split at hs
    · rename_i hc
      obtain ⟨hk, hq, hv⟩ := hc
      rw [exists_iff] at hq
      injection hs with e1 e2
      subst e1
      refine ⟨fun x hx => poke_out ?_, fun _ _ => rfl⟩
      have := hin k hk
      have := h.inside hq
      omega
    · exact nomatch hs
  | get k q =>
    unfold step at hs
    simp only at hs
    split at hs
    · injection hs with e1 e2
      subst e1
      exact ⟨fun _ _ => rfl, fun _ _ => rfl⟩
    · exact nomatch hs
  | copy d c =>
    unfold step at hs
    simp only at hs
    split at hs
    · rename_i hc
      injection hs with e1 e2
      subst e1
      refine ⟨fun x hx => copy_out ?_, fun _ _ => rfl⟩
      have := hin d hc.1
      omega
    · exact nomatch hs
  | write k b =>
    unfold step at hs
    simp only at hs
    split at hs
    · split at hs
      · injection hs with e1 e2
        subst e1
        refine ⟨fun _ _ => rfl, fun y hy => poke_out ?_⟩
        rw [peek_length]
        exact hy k b rfl
      · exact nomatch hs
    · exact nomatch hs
  | read k b =>
    unfold step at hs
    simp only at hs
    split at hs
    · rename_i hk
      split at hs
      · injection hs with e1 e2
        subst e1
        refine ⟨fun x hx => poke_out ?_, fun _ _ => rfl⟩
        rw [peek_length]
        have := hin k hk
        omega
      · exact nomatch hs
    · exact nomatch hs

theorem walk_spec (p : TParams) (hs : 0 < p.s) : ∀ (n a fuel : Nat), n < fuel →
    walk p (a + n * p.s) fuel a = some ((List.range n).map fun i => a + i * p.s)
  | 0, a, fuel + 1, _ => by simp [walk]
  | n + 1, a, fuel + 1, h => by
    unfold walk
    have e : a + (n + 1) * p.s = a + p.s + n * p.s := by rw [Nat.add_mul]; omega
    have hpos : 0 ≤ n * p.s := Nat.zero_le _
    rw [if_neg (by omega), e, walk_spec p hs n (a + p.s) fuel (by omega), List.range_succ_eq_map]
    simp only [Option.map_some, List.map_cons, List.map_map, Nat.zero_mul, Nat.add_zero]
    congr 2
    apply List.map_congr_left
    intro i _
    simp only [Function.comp, Nat.succ_eq_add_one, Nat.add_mul]
    omega

end Foxxll.BlockElems
