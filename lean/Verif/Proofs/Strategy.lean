/-
Auxiliary lemmas for the theorems of `Verif.Props.Strategy`.
-/
import Verif.Model.Strategy

namespace Foxxll.Strategy

theorem mod?_pos {x d : Nat} (h : 0 < d) : mod? x d = some (x % d) := by
  simp [mod?, Nat.pos_iff_ne_zero.1 h]

theorem div?_pos {x d : Nat} (h : 0 < d) : div? x d = some (x / d) := by
  simp [div?, Nat.pos_iff_ne_zero.1 h]

theorem perm_get {n : Nat} {p : List Nat} (hp : p.Perm (List.range n)) {j : Nat} (hj : j < n) :
    ∃ v, p[j]? = some v ∧ v < n := by
  have hl : p.length = n := by simpa using hp.length_eq
  have hj' : j < p.length := by omega
  refine ⟨p[j], List.getElem?_eq_getElem hj', ?_⟩
  simpa using hp.subset (List.getElem_mem hj')

theorem in_range_aux {b e x : Nat} (h : b < e) :
    ∃ d, (mod? x (e - b)).map (b + ·) = some d ∧ b ≤ d ∧ d < e := by
  have h0 : 0 < e - b := by omega
  refine ⟨b + x % (e - b), by simp [mod?_pos h0], by omega, ?_⟩
  have := Nat.mod_lt x h0; omega

theorem rotate_perm (D k : Nat) (g : Nat → Option Nat) :
    ((List.range D).map (fun j => g ((k + j) % D))).Perm ((List.range D).map g) := by
  induction k with
  | zero =>
    have : (List.range D).map (fun j => g ((0 + j) % D)) = (List.range D).map g := by
      apply List.map_congr_left
      intro a ha
      rw [Nat.zero_add, Nat.mod_eq_of_lt (List.mem_range.1 ha)]
    rw [this]
  | succ k ih =>
    refine List.Perm.trans ?_ ih
    cases D with
    | zero => simp
    | succ n =>
      have e1 : (List.range n).map (fun j => g ((k + 1 + j) % (n + 1)))
          = (List.range n).map ((fun j => g ((k + j) % (n + 1))) ∘ Nat.succ) := by
        apply List.map_congr_left
        intro a _
        simp only [Function.comp_apply]
        rw [show k + 1 + a = k + a.succ by omega]
      have e2 : [n].map (fun j => g ((k + 1 + j) % (n + 1))) = [g ((k + 0) % (n + 1))] := by
        simp only [List.map_cons, List.map_nil, Nat.add_zero]
        rw [show k + 1 + n = k + (n + 1) by omega, Nat.add_mod_right]
      have l1 : (List.range (n + 1)).map (fun j => g ((k + 1 + j) % (n + 1)))
          = (List.range n).map ((fun j => g ((k + j) % (n + 1))) ∘ Nat.succ)
            ++ [g ((k + 0) % (n + 1))] := by
        rw [List.range_succ, List.map_append, e1, e2]
      have l2 : (List.range (n + 1)).map (fun j => g ((k + j) % (n + 1)))
          = g ((k + 0) % (n + 1))
            :: (List.range n).map ((fun j => g ((k + j) % (n + 1))) ∘ Nat.succ) := by
        rw [List.range_succ_eq_map, List.map_cons, List.map_map]
      rw [l1, l2]
      exact List.perm_append_singleton _ _

theorem perm_map_get {n : Nat} {p : List Nat} (hp : p.Perm (List.range n)) (b : Nat) :
    ((List.range n).map (fun j => (p[j]?).map (b + ·))).Perm
      ((List.range n).map (fun j => some (b + j))) := by
  have hl : p.length = n := by simpa using hp.length_eq
  have : (List.range n).map (fun j => (p[j]?).map (b + ·)) = p.map (fun v => some (b + v)) := by
    apply List.ext_getElem
    · simp [hl]
    · intro i h1 h2
      have : i < p.length := by simpa using h2
      simp [this]
  rw [this]
  exact hp.map _

theorem div_run {n r k : Nat} (hr : r < n) : (r + n * k) / n = k := by
  rw [Nat.add_mul_div_left _ _ (by omega), Nat.div_eq_of_lt hr, Nat.zero_add]

theorem mod_run {n r k : Nat} (hr : r < n) : (r + n * k) % n = r := by
  rw [Nat.add_mul_mod_self_left, Nat.mod_eq_of_lt hr]

end Foxxll.Strategy
