/-
Lemmas about the table of busy blocks.
-/
import Verif.Spec.BidHash

namespace Foxxll.BidHash

variable {V : Type}

theorem eq_iff (a b : Bid) : a.eq b = true ↔ a = b := by
  cases a; cases b
  simp [Bid.eq]

/-- Different keys. -/
def NK (l : List (Bid × V)) : Prop := l.Pairwise fun x y => x.1 ≠ y.1

/-- Buckets have different keys, which belong there. -/
structure TInv (w : Nat) (t : Table V) : Prop where
  pos : 0 < t.length
  nk : ∀ (i : Nat) l, t[i]? = some l → NK l
  at' : ∀ (i : Nat) l, t[i]? = some l → ∀ x ∈ l, slot w t x.1 = i

/-- The entry is in the table. -/
def In (t : Table V) (x : Bid × V) : Prop := ∃ (i : Nat) (l : List (Bid × V)), t[i]? = some l ∧ x ∈ l

theorem in_iff (t : Table V) (x : Bid × V) : x ∈ entries t ↔ In t x := by
  unfold entries In
  rw [List.mem_flatten]
  constructor
  · rintro ⟨l, h1, h2⟩
    obtain ⟨i, hi⟩ := List.mem_iff_getElem?.1 h1
    exact ⟨i, l, hi, h2⟩
  · rintro ⟨i, l, h1, h2⟩
    exact ⟨l, List.mem_of_getElem? h1, h2⟩

theorem NK.uniq {l : List (Bid × V)} (h : NK l) {x y : Bid × V} (hx : x ∈ l) (hy : y ∈ l) (e : x.1 = y.1) : x = y := by
  induction l with
  | nil => exact nomatch hx
  | cons z l ih =>
    obtain ⟨h1, h2⟩ := List.pairwise_cons.1 h
    rcases List.mem_cons.1 hx with ex | hx'
    · rcases List.mem_cons.1 hy with ey | hy'
      · rw [ex, ey]
      · subst ex
        exact absurd e (h1 y hy')
    · rcases List.mem_cons.1 hy with ey | hy'
      · subst ey
        exact absurd e.symm (h1 x hx')
      · exact ih h2 hx' hy'

theorem TInv.entries {w : Nat} {t : Table V} (h : TInv w t) : NK (entries t) := by
  unfold NK BidHash.entries
  rw [List.pairwise_flatten]
  refine ⟨fun l hl => ?_, ?_⟩
  · obtain ⟨i, hi⟩ := List.mem_iff_getElem?.1 hl
    exact h.nk i l hi
  · rw [List.pairwise_iff_getElem]
    intro i j hi hj hij x hx y hy e
    have h1 := h.at' i _ (List.getElem?_eq_getElem hi) x hx
    have h2 := h.at' j _ (List.getElem?_eq_getElem hj) y hy
    rw [e] at h1
    omega

theorem slot_lt {w : Nat} {t : Table V} (h : 0 < t.length) (b : Bid) : slot w t b < t.length := Nat.mod_lt _ h

theorem slot_modify (w : Nat) (t : Table V) (i : Nat) (f : List (Bid × V) → List (Bid × V)) (b : Bid) : slot w (t.modify i f) b = slot w t b := by
  unfold slot
  rw [List.length_modify]

/-- A bucket is changed. -/
theorem modify_inv {w : Nat} {t : Table V} (h : TInv w t) (b : Bid) (f : List (Bid × V) → List (Bid × V)) (hnk : ∀ l, NK l → NK (f l) )
    (hk : ∀ l, ∀ x ∈ f l, x.1 = b ∨ ∃ y ∈ l, y.1 = x.1) : TInv w (t.modify (slot w t b) f) := by
  refine ⟨by rw [List.length_modify]; exact h.pos, fun i l hl => ?_, fun i l hl x hx => ?_⟩
  · rw [List.getElem?_modify] at hl
    obtain ⟨l0, h0, h1⟩ := Option.map_eq_some_iff.1 hl
    split at h1
    · rw [← h1]
      exact hnk _ (h.nk i l0 h0)
    · rw [← h1]
      exact h.nk i l0 h0
  · rw [slot_modify]
    rw [List.getElem?_modify] at hl
    obtain ⟨l0, h0, h1⟩ := Option.map_eq_some_iff.1 hl
    split at h1
    · rename_i hi
      subst h1
      rcases hk l0 x hx with e | ⟨y, hy, e⟩
      · rw [e]; exact hi
      · rw [← e]; exact h.at' i l0 h0 y hy
    · subst h1
      exact h.at' i _ h0 x hx

theorem modify_in {w : Nat} {t : Table V} (h : TInv w t) (b : Bid) (f : List (Bid × V) → List (Bid × V)) (P : Bid × V → Prop)
    (hb : ∀ l, NK l → ∀ x, x ∈ f l ↔ P x ∨ (x.1 ≠ b ∧ x ∈ l)) (x : Bid × V) : In (t.modify (slot w t b) f) x ↔ P x ∨ (x.1 ≠ b ∧ In t x) := by
  have hlt := slot_lt (w := w) h.pos b
  constructor
  · rintro ⟨i, l, hl, hx⟩
    rw [List.getElem?_modify] at hl
    obtain ⟨l0, h0, h1⟩ := Option.map_eq_some_iff.1 hl
    split at h1
    · subst h1
      rcases (hb l0 (h.nk i l0 h0) x).1 hx with e | ⟨e1, e2⟩
      · exact .inl e
      · exact .inr ⟨e1, i, l0, h0, e2⟩
    · rename_i hne
      subst h1
      refine .inr ⟨fun e => hne ?_, i, _, h0, hx⟩
      have := h.at' i _ h0 x hx
      rw [e] at this
      exact this
  · rintro (hp | ⟨hne, i, l, hl, hx⟩)
    · refine ⟨slot w t b, f t[slot w t b], ?_, (hb _ (h.nk _ _ (List.getElem?_eq_getElem hlt)) x).2 (.inl hp)⟩
      rw [List.getElem?_modify, List.getElem?_eq_getElem hlt]
      simp
    · by_cases e : slot w t b = i
      · refine ⟨i, f l, ?_, (hb l (h.nk i l hl) x).2 (.inr ⟨hne, hx⟩)⟩
        rw [List.getElem?_modify, hl]
        simp [e]
      · refine ⟨i, l, ?_, hx⟩
        rw [List.getElem?_modify, hl]
        simp [e]

/-- The new bucket of `insert`. -/
def ins (b : Bid) (v : V) (l : List (Bid × V)) : List (Bid × V) :=
  if l.any fun x => x.1.eq b then l.map fun x => if x.1.eq b then (x.1, v) else x else (b, v) :: l

theorem ins_nk (b : Bid) (v : V) (l : List (Bid × V)) (h : NK l) : NK (ins b v l) := by
  unfold ins
  split
  · unfold NK
    rw [List.pairwise_map]
    refine List.Pairwise.imp (fun {x y} hxy => ?_) h
    have e : ∀ z : Bid × V, (if z.1.eq b then (z.1, v) else z).1 = z.1 := fun z => by split <;> rfl
    rw [e, e]
    exact hxy
  · rename_i hn
    refine List.pairwise_cons.2 ⟨fun y hy e => hn ?_, h⟩
    exact List.any_eq_true.2 ⟨y, hy, (eq_iff _ _).2 e.symm⟩

theorem ins_mem (b : Bid) (v : V) (l : List (Bid × V)) (_ : NK l) (x : Bid × V) : x ∈ ins b v l ↔ x = (b, v) ∨ (x.1 ≠ b ∧ x ∈ l) := by
  unfold ins
  split
  · rename_i ha
    obtain ⟨z, hz, hzb⟩ := List.any_eq_true.1 ha
    have hzb := (eq_iff _ _).1 hzb
    rw [List.mem_map]
    constructor
    · rintro ⟨y, hy, e⟩
      split at e
      · rename_i hyb
        have hyb := (eq_iff _ _).1 hyb
        rw [hyb] at e
        exact .inl e.symm
      · rename_i hyb
        subst e
        exact .inr ⟨(fun h => hyb ((eq_iff _ _).2 h)), hy⟩
    · rintro (e | ⟨h1, h2⟩)
      · refine ⟨z, hz, ?_⟩
        rw [if_pos ((eq_iff _ _).2 hzb), hzb, e]
      · exact ⟨x, h2, if_neg fun h => h1 ((eq_iff _ _).1 h)⟩
  · rename_i hn
    rw [List.mem_cons]
    constructor
    · rintro (e | h)
      · exact .inl e
      · exact .inr ⟨(fun e => hn (List.any_eq_true.2 ⟨x, h, (eq_iff _ _).2 e⟩)), h⟩
    · rintro (e | ⟨_, h⟩)
      · exact .inl e
      · exact .inr h

theorem del_nk (b : Bid) (l : List (Bid × V)) (h : NK l) : NK (l.eraseP fun x => x.1.eq b) := List.Pairwise.sublist (List.eraseP_sublist) h

theorem del_mem (b : Bid) : ∀ (l : List (Bid × V)), NK l → ∀ x, x ∈ l.eraseP (fun x => x.1.eq b) ↔ False ∨ (x.1 ≠ b ∧ x ∈ l)
  | [], _, x => by simp
  | y :: l, h, x => by
    obtain ⟨h1, h2⟩ := List.pairwise_cons.1 h
    by_cases hy : y.1.eq b = true
    · have e := (eq_iff _ _).1 hy
      rw [List.eraseP_cons_of_pos (p := fun x : Bid × V => x.1.eq b) hy, List.mem_cons]
      constructor
      · intro hx
        exact .inr ⟨(fun e2 => h1 x hx (by rw [e, e2])), .inr hx⟩
      · rintro (h | ⟨h3, rfl | h⟩)
        · exact h.elim
        · exact absurd e h3
        · exact h
    · have e : y.1 ≠ b := fun e => hy ((eq_iff _ _).2 e)
      rw [List.eraseP_cons_of_neg (p := fun x : Bid × V => x.1.eq b) hy, List.mem_cons, List.mem_cons, del_mem b l h2 x]
      constructor
      · rintro (rfl | h | ⟨h3, h4⟩)
        · exact .inr ⟨e, .inl rfl⟩
        · exact h.elim
        · exact .inr ⟨h3, .inr h4⟩
      · rintro (h | ⟨h3, h4 | h4⟩)
        · exact h.elim
        · exact .inl h4
        · exact .inr (.inr ⟨h3, h4⟩)

theorem insert_inv {w : Nat} {t : Table V} (h : TInv w t) (b : Bid) (v : V) :
    TInv w (insert w t b v) ∧ ∀ x, In (insert w t b v) x ↔ x = (b, v) ∨ (x.1 ≠ b ∧ In t x) := by
  refine ⟨modify_inv h b (ins b v) (ins_nk b v) (fun l x hx => ?_), modify_in h b (ins b v) (· = (b, v)) (ins_mem b v)⟩
  unfold ins at hx
  split at hx
  · obtain ⟨y, hy, e⟩ := List.mem_map.1 hx
    refine .inr ⟨y, hy, ?_⟩
    rw [← e]
    split <;> rfl
  · rcases List.mem_cons.1 hx with e | hx
    · exact .inl (by rw [e])
    · exact .inr ⟨x, hx, rfl⟩

theorem erase_inv {w : Nat} {t : Table V} (h : TInv w t) (b : Bid) : TInv w (erase w t b) ∧ ∀ x, In (erase w t b) x ↔ (x.1 ≠ b ∧ In t x) := by
  refine ⟨modify_inv h b _ (del_nk b) (fun l x hx => .inr ⟨x, List.mem_of_mem_eraseP hx, rfl⟩), fun x => ?_⟩
  have := modify_in h b _ (fun _ => False) (del_mem b) x
  rw [show erase w t b = t.modify (slot w t b) fun l => l.eraseP fun x => x.1.eq b from rfl, this]
  exact ⟨fun h => h.elim False.elim id, .inr⟩

theorem place_inv {w : Nat} {t : Table V} (h : TInv w t) (x : Bid × V) (hn : ∀ y, In t y → y.1 ≠ x.1) :
    TInv w (place w t x) ∧ ∀ y, In (place w t x) y ↔ y = x ∨ In t y := by
  have hlt := slot_lt (w := w) h.pos x.1
  refine ⟨⟨by unfold place; rw [List.length_modify]; exact h.pos, fun i l hl => ?_, fun i l hl y hy => ?_⟩, fun y => ?_⟩
  · unfold place at hl
    rw [List.getElem?_modify] at hl
    obtain ⟨l0, h0, h1⟩ := Option.map_eq_some_iff.1 hl
    split at h1
    · rw [← h1]
      exact List.pairwise_cons.2 ⟨fun y hy e => hn y ⟨i, l0, h0, hy⟩ e.symm, h.nk i l0 h0⟩
    · rw [← h1]
      exact h.nk i l0 h0
  · unfold place at hl ⊢
    rw [slot_modify]
    rw [List.getElem?_modify] at hl
    obtain ⟨l0, h0, h1⟩ := Option.map_eq_some_iff.1 hl
    split at h1
    · rename_i hi
      subst h1
      rcases List.mem_cons.1 hy with rfl | hy
      · exact hi
      · exact h.at' i l0 h0 y hy
    · subst h1
      exact h.at' i _ h0 y hy
  · constructor
    · rintro ⟨i, l, hl, hy⟩
      unfold place at hl
      rw [List.getElem?_modify] at hl
      obtain ⟨l0, h0, h1⟩ := Option.map_eq_some_iff.1 hl
      split at h1
      · subst h1
        rcases List.mem_cons.1 hy with rfl | hy
        · exact .inl rfl
        · exact .inr ⟨i, l0, h0, hy⟩
      · subst h1
        exact .inr ⟨i, _, h0, hy⟩
    · rintro (rfl | ⟨i, l, hl, hy⟩)
      · refine ⟨slot w t y.1, y :: t[slot w t y.1], ?_, List.mem_cons_self ..⟩
        unfold place
        rw [List.getElem?_modify, List.getElem?_eq_getElem hlt]
        simp
      · by_cases e : slot w t x.1 = i
        · refine ⟨i, x :: l, ?_, List.mem_cons_of_mem _ hy⟩
          unfold place
          rw [List.getElem?_modify, hl]
          simp [e]
        · refine ⟨i, l, ?_, hy⟩
          unfold place
          rw [List.getElem?_modify, hl]
          simp [e]

theorem fold_inv {w : Nat} : ∀ (es : List (Bid × V)) (t : Table V), TInv w t → NK es → (∀ x ∈ es, ∀ y, In t y → y.1 ≠ x.1) →
    TInv w (es.foldl (place w) t) ∧ ∀ y, In (es.foldl (place w) t) y ↔ y ∈ es ∨ In t y
  | [], t, h, _, _ => ⟨h, fun y => by simp⟩
  | x :: es, t, h, hn, hd => by
    obtain ⟨n1, n2⟩ := List.pairwise_cons.1 hn
    obtain ⟨p1, p2⟩ := place_inv h x (hd x (List.mem_cons_self ..))
    obtain ⟨q1, q2⟩ := fold_inv es (place w t x) p1 n2 (fun z hz y hy => by
      rcases (p2 y).1 hy with rfl | hy
      · exact n1 z hz
      · exact hd z (List.mem_cons_of_mem _ hz) y hy)
    refine ⟨q1, fun y => ?_⟩
    rw [List.foldl_cons, q2, p2, List.mem_cons]
    constructor
    · rintro (h | h | h)
      · exact .inl (.inr h)
      · exact .inl (.inl h)
      · exact .inr h
    · rintro ((h | h) | h)
      · exact .inr (.inl h)
      · exact .inl h
      · exact .inr (.inr h)

theorem empty_in (n : Nat) (x : Bid × V) : ¬ In (List.replicate n []) x := by
  rintro ⟨i, l, hl, hx⟩
  have := List.eq_of_mem_replicate (List.mem_of_getElem? hl)
  rw [this] at hx
  exact nomatch hx

theorem empty_inv (w n : Nat) : TInv w (List.replicate (n + 1) [] : Table V) := by
  refine ⟨by simp, fun i l hl => ?_, fun i l hl x hx => absurd ⟨i, l, hl, hx⟩ (empty_in _ x)⟩
  rw [List.eq_of_mem_replicate (List.mem_of_getElem? hl)]
  exact List.Pairwise.nil

theorem rehash_inv {w : Nat} {t : Table V} (n : Nat) (h : TInv w t) : TInv w (rehash w (n + 1) t) ∧ ∀ x, In (rehash w (n + 1) t) x ↔ In t x := by
  obtain ⟨h1, h2⟩ := fold_inv (entries t) (List.replicate (n + 1) []) (empty_inv w n) h.entries (fun x _ y hy => absurd hy (empty_in _ y))
  refine ⟨h1, fun x => ?_⟩
  unfold rehash
  rw [h2, in_iff]
  exact ⟨fun h => h.elim id fun h => absurd h (empty_in _ x), .inl⟩

/-- Table and map. -/
structure Rel (w : Nat) (t : Table V) (m : List (Bid × V)) : Prop where
  inv : TInv w t
  nk : NK m
  same : ∀ x, In t x ↔ x ∈ m

theorem NK.nodup {l : List (Bid × V)} (h : NK l) : l.Nodup := List.Pairwise.imp (fun {x y} hxy e => hxy (by rw [e])) h

theorem Rel.perm {w : Nat} {t : Table V} {m : List (Bid × V)} (h : Rel w t m) : (entries t).Perm m :=
  (List.perm_ext_iff_of_nodup h.inv.entries.nodup h.nk.nodup).2 fun x => (in_iff t x).trans (h.same x)

theorem find_char {l : List (Bid × V)} (h : NK l) (b : Bid) (v : V) (f : Bid × V → Bool) (hf : ∀ x, f x = true ↔ x.1 = b) :
    (l.find? f).map (·.2) = some v ↔ (b, v) ∈ l := by
  constructor
  · intro e
    obtain ⟨x, hx, e⟩ := Option.map_eq_some_iff.1 e
    have h1 := (hf x).1 (List.find?_some hx)
    have h2 := List.mem_of_find?_eq_some hx
    rw [← h1, ← e]
    exact h2
  · intro hm
    cases hx : l.find? f with
    | none => exact absurd ((hf (b, v)).2 rfl) (List.find?_eq_none.1 hx _ hm)
    | some x =>
      have h1 := (hf x).1 (List.find?_some hx)
      have := h.uniq (List.mem_of_find?_eq_some hx) hm h1
      rw [this]
      rfl

theorem find_eq {w : Nat} {t : Table V} {m : List (Bid × V)} (h : Rel w t m) (b : Bid) : find w t b = (m.find? fun x => decide (x.1 = b)).map (·.2) := by
  have hlt := slot_lt (w := w) h.inv.pos b
  have hg : t[slot w t b]? = some t[slot w t b] := List.getElem?_eq_getElem hlt
  have key : ∀ v, find w t b = some v ↔ (m.find? fun x => decide (x.1 = b)).map (·.2) = some v := by
    intro v
    rw [find_char h.nk b v _ (fun x => by simp), ← h.same]
    unfold find
    rw [List.getD_eq_getElem?_getD, hg, Option.getD_some, find_char (h.inv.nk _ _ hg) b v _ (fun x => eq_iff _ _)]
    constructor
    · exact fun hm => ⟨_, _, hg, hm⟩
    · rintro ⟨i, l, hl, hm⟩
      have := h.inv.at' i l hl _ hm
      subst this
      rw [hg] at hl
      injection hl with hl
      rw [hl]
      exact hm
  cases h1 : find w t b with
  | some v => exact ((key v).1 h1).symm
  | none =>
    cases h2 : (m.find? fun x => decide (x.1 = b)).map (·.2) with
    | none => rfl
    | some v => rw [(key v).2 h2] at h1; exact nomatch h1

theorem step_rel {w : Nat} {t : Table V} {m : List (Bid × V)} (h : Rel w t m) (op : Op V) : (step w t op).1 = (mapStep m op).1 ∧ Rel w (step w t op).2 (mapStep m op).2 := by
  cases op with
  | find b => exact ⟨congrArg Ans.found (find_eq h b), h⟩
  | insert b v =>
    obtain ⟨h1, h2⟩ := insert_inv h.inv b v
    refine ⟨rfl, h1, List.pairwise_cons.2 ⟨fun y hy e => ?_, h.nk.filter _⟩, fun x => ?_⟩
    · have := (List.mem_filter.1 hy).2
      simp at this
      exact this e.symm
    · show In (insert w t b v) x ↔ x ∈ (b, v) :: m.filter fun x => decide (x.1 ≠ b)
      rw [h2, List.mem_cons, List.mem_filter, h.same, decide_eq_true_iff, and_comm]
  | erase b =>
    obtain ⟨h1, h2⟩ := erase_inv h.inv b
    refine ⟨rfl, h1, h.nk.filter _, fun x => ?_⟩
    show In (erase w t b) x ↔ x ∈ m.filter fun x => decide (x.1 ≠ b)
    rw [h2, List.mem_filter, h.same, decide_eq_true_iff, and_comm]
  | size => exact ⟨congrArg Ans.size h.perm.length_eq, h⟩
  | rehash n =>
    obtain ⟨h1, h2⟩ := rehash_inv n h.inv
    exact ⟨rfl, h1, h.nk, fun x => (h2 x).trans (h.same x)⟩

theorem run_rel {w : Nat} : ∀ (l : List (Op V)) (t : Table V) (m : List (Bid × V)), Rel w t m → (run w t l).1 = (mapRun m l).1 ∧ Rel w (run w t l).2 (mapRun m l).2
  | [], _, _, h => ⟨rfl, h⟩
  | op :: l, t, m, h => by
    obtain ⟨h1, h2⟩ := step_rel h op
    obtain ⟨h3, h4⟩ := run_rel l _ _ h2
    refine ⟨?_, h4⟩
    show _ :: _ = _ :: _
    rw [h1, h3]

theorem empty_rel (w n : Nat) : Rel w (List.replicate (n + 1) [] : Table V) [] :=
  ⟨empty_inv w n, List.Pairwise.nil, fun x => ⟨fun h => absurd h (empty_in _ x), fun h => nomatch h⟩⟩

end Foxxll.BidHash
