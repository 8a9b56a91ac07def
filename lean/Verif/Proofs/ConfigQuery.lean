import Verif.Spec.ConfigQuery
namespace Foxxll.ConfigQuery
open Foxxll.Config

variable {debug : Bool} {env : Env} {found : Option (Option (List Str))}

theorem init_done {c : Cfg} (h : c.isInit = true) : init env c found = (c, false) := by unfold init; rw [if_pos h]

theorem init_ok {c c' : Cfg} (h : init env c found = (c', false)) : c'.isInit = true := by
  unfold init at h
  split at h
  · rename_i hi; injection h with h _; rw [← h]; exact hi
  · dsimp only at h
    generalize (if c.disks = [] then findConfig env { c with firstFlash := 0 } found else ({ c with firstFlash := 0 }, false)) = r at h
    by_cases hr : r.2 = true
    · rw [if_pos hr] at h; rw [h] at hr; cases hr
    · rw [if_neg hr] at h; injection h with h _; rw [← h]

theorem checked_done {c : Cfg} (h : c.isInit = true) (k : Cfg → QRes) : checked env found c k = k c := by
  unfold checked; rw [init_done h]; rfl

theorem asserted_done {c : Cfg} (h : c.isInit = true) (k : QRes) : asserted debug c k = k := by
  unfold asserted; rw [if_neg (by simp [h])]

theorem totalLoop_eq (l : List Disk) (t : Nat) (ht : t < 2 ^ 64) : totalLoop t l = (t + (l.map (·.size)).sum) % 2 ^ 64 := by
  induction l generalizing t with
  | nil => simp [totalLoop, Nat.mod_eq_of_lt ht]
  | cons d l ih =>
    unfold totalLoop
    rw [ih _ (Nat.mod_lt _ (by decide))]
    simp only [List.map_cons, List.sum_cons]
    omega

theorem disk_done {c : Cfg} (h : c.isInit = true) (i : Nat) :
    query debug env found c (.disk i) = if debug = true ∧ c.disks.length ≤ i then .assertFail else elem c i .whole :=
  checked_done h fun c => if debug = true ∧ c.disks.length ≤ i then .assertFail else elem c i .whole

theorem elem_some {c : Cfg} {i : Nat} {d : Disk} (h : c.disks[i]? = some d) (k : Disk → Answer) : elem c i k = .ok (k d) c := by
  unfold elem; rw [h]

theorem elem_none {c : Cfg} {i : Nat} (h : c.disks.length ≤ i) (k : Disk → Answer) : elem c i k = .ub := by
  unfold elem; rw [List.getElem?_eq_none h]

/-- A query of an initialised configuration. -/
theorem query_done {c : Cfg} (h : c.isInit = true) (q : Query) (hq : ¬ q.Bad c.disks.length) (hs : (c.disks.map (·.size)).sum < 2 ^ 64) (hl : c.disks.length < 2 ^ 32) :
    ∃ a, query debug env found c q = .ok a c ∧ Right c.disks c.firstFlash q a := by
  have hx : ∀ {i : Nat}, ¬ c.disks.length ≤ i → ∃ d, c.disks[i]? = some d := fun {i} h => ⟨_, List.getElem?_eq_getElem (Nat.lt_of_not_le h)⟩
  cases q with
  | disksNumber => exact ⟨.num c.disks.length, checked_done h (fun c => .ok (.num c.disks.length) c), rfl⟩
  | regularRange => exact ⟨_, asserted_done h _, rfl⟩
  | flashRange =>
    refine ⟨_, asserted_done h _, ?_⟩
    show Answer.range (c.firstFlash, c.disks.length % 2 ^ 32) = _
    rw [Nat.mod_eq_of_lt hl]
  | disk i =>
    obtain ⟨d, hd⟩ := hx hq
    have hq : ¬ c.disks.length ≤ i := hq
    refine ⟨.whole d, ?_, d, hd, rfl⟩
    rw [disk_done h, if_neg (fun e => hq e.2), elem_some hd]
  | diskPath i =>
    obtain ⟨d, hd⟩ := hx hq
    exact ⟨_, (asserted_done h _).trans (elem_some hd _), d, hd, rfl⟩
  | diskSize i =>
    obtain ⟨d, hd⟩ := hx hq
    exact ⟨_, (asserted_done h _).trans (elem_some hd _), d, hd, rfl⟩
  | diskIoImpl i =>
    obtain ⟨d, hd⟩ := hx hq
    exact ⟨_, (asserted_done h _).trans (elem_some hd _), d, hd, rfl⟩
  | totalSize =>
    refine ⟨_, asserted_done h _, ?_⟩
    show Answer.num (totalLoop 0 c.disks) = _
    rw [totalLoop_eq _ _ (by decide), Nat.zero_add, Nat.mod_eq_of_lt hs]

theorem query_bad {c : Cfg} (h : c.isInit = true) (q : Query) (hq : q.Bad c.disks.length) :
    ((debug = true ∧ ∃ i, q = .disk i) ∧ query debug env found c q = .assertFail) ∨ (¬ (debug = true ∧ ∃ i, q = .disk i) ∧ query debug env found c q = .ub) := by
  cases q with
  | disksNumber => exact absurd hq id
  | regularRange => exact absurd hq id
  | flashRange => exact absurd hq id
  | totalSize => exact absurd hq id
  | disk i =>
    have hq : c.disks.length ≤ i := hq
    cases debug with
    | true => exact .inl ⟨⟨rfl, i, rfl⟩, (disk_done h i).trans (if_pos ⟨rfl, hq⟩)⟩
    | false => exact .inr ⟨by simp, (disk_done h i).trans ((if_neg (by simp)).trans (elem_none hq _))⟩
  | diskPath i => exact .inr ⟨by simp, (asserted_done h _).trans (elem_none hq _)⟩
  | diskSize i => exact .inr ⟨by simp, (asserted_done h _).trans (elem_none hq _)⟩
  | diskIoImpl i => exact .inr ⟨by simp, (asserted_done h _).trans (elem_none hq _)⟩

theorem sum_set_le (l : List Disk) (i : Nat) (d : Disk) : ((l.set i d).map (·.size)).sum ≤ (l.map (·.size)).sum + d.size := by
  induction l generalizing i with
  | nil => simp
  | cons x l ih =>
    cases i with
    | zero => simp; omega
    | succ i => have := ih i; simp only [List.set_cons_succ, List.map_cons, List.sum_cons]; omega

theorem run_done {c : Cfg} (h : c.isInit = true) (l : List COp) (acc : List Answer) (hv : Valid c.disks.length l) (hs : Small c.disks l) (hf : c.firstFlash + l.length < 2 ^ 32) :
    ∃ as c', runQueries debug env found c acc l = .ok (acc ++ as) c' ∧ Means c.disks c.firstFlash l as c'.disks ∧ c'.isInit = true := by
  induction l generalizing c acc with
  | nil => exact ⟨[], c, by rw [List.append_nil]; rfl, .nil _ _, h⟩
  | cons o l ih =>
    obtain ⟨hs1, hs2⟩ := hs
    simp only [List.map_cons, List.sum_cons, List.length_cons] at hs1 hs2 hf
    cases o with
    | add d =>
      have hff : (c.firstFlash + 1) % 2 ^ 32 = c.firstFlash + 1 := Nat.mod_eq_of_lt (by omega)
      obtain ⟨as, c', e1, e2, e3⟩ := ih (c := addDisk c d) h acc (by simpa [addDisk, Valid] using hv)
        (by constructor
            · simp [addDisk]; simp at hs1; omega
            · simp [addDisk]; omega) (by show (c.firstFlash + 1) % 2 ^ 32 + _ < _; omega)
      refine ⟨as, c', e1, .add ?_, e3⟩
      have e2 : Means (c.disks ++ [d]) ((c.firstFlash + 1) % 2 ^ 32) l as c'.disks := e2
      rwa [hff] at e2
    | ask q =>
      obtain ⟨hq, hv⟩ := hv
      obtain ⟨a, ha, hr⟩ := query_done (debug := debug) (env := env) (found := found) h q hq (by omega) (by omega)
      obtain ⟨as, c', e1, e2, e3⟩ := ih h (acc ++ [a]) hv ⟨by omega, by omega⟩ (by omega)
      refine ⟨a :: as, c', ?_, .ask hr e2, e3⟩
      unfold runQueries
      rw [ha]
      dsimp only
      rw [e1, List.append_assoc]; rfl
    | change i d =>
      obtain ⟨hi, hv⟩ := hv
      obtain ⟨a, ha, _⟩ := query_done (debug := debug) (env := env) (found := found) h (.disk i) (Nat.not_le.2 hi) (by omega) (by omega)
      have := sum_set_le c.disks i d
      obtain ⟨as, c', e1, e2, e3⟩ := ih (c := { c with disks := c.disks.set i d }) h acc (by simpa using hv) ⟨by dsimp only at hs1 ⊢; omega, by simp; omega⟩ (by dsimp only; omega)
      refine ⟨as, c', ?_, .change hi e2, e3⟩
      unfold runQueries
      rw [ha]
      exact e1

/-- A program that names a disk that does not exist. -/
theorem run_bad {c : Cfg} (h : c.isInit = true) (l : List COp) (acc : List Answer) (hv : ¬ Valid c.disks.length l) (hs : Small c.disks l) :
    runQueries debug env found c acc l = .ub ∨ (debug = true ∧ runQueries debug env found c acc l = .assertFail) := by
  induction l generalizing c acc with
  | nil => exact absurd trivial hv
  | cons o l ih =>
    obtain ⟨hs1, hs2⟩ := hs
    simp only [List.map_cons, List.sum_cons, List.length_cons] at hs1 hs2
    cases o with
    | add d =>
      exact ih (c := addDisk c d) h acc (by simpa [addDisk, Valid] using hv)
        (by constructor
            · simp [addDisk]; simp at hs1; omega
            · simp [addDisk]; omega)
    | ask q =>
      unfold runQueries
      by_cases hq : q.Bad c.disks.length
      · rcases query_bad (debug := debug) (env := env) (found := found) h q hq with ⟨e, e'⟩ | ⟨_, e'⟩
        · rw [e']; exact .inr ⟨e.1, rfl⟩
        · rw [e']; exact .inl rfl
      · obtain ⟨a, ha, _⟩ := query_done (debug := debug) (env := env) (found := found) h q hq (by omega) (by omega)
        rw [ha]
        exact ih h _ (fun e => hv ⟨hq, e⟩) ⟨by omega, by omega⟩
    | change i d =>
      unfold runQueries
      by_cases hi : i < c.disks.length
      · obtain ⟨a, ha, _⟩ := query_done (debug := debug) (env := env) (found := found) h (.disk i) (Nat.not_le.2 hi) (by omega) (by omega)
        rw [ha]
        have := sum_set_le c.disks i d
        exact ih (c := { c with disks := c.disks.set i d }) h acc (by simpa using fun e => hv ⟨hi, e⟩) ⟨by dsimp only at hs1 ⊢; omega, by simp; omega⟩
      · rcases query_bad (debug := debug) (env := env) (found := found) h (.disk i) (Nat.le_of_not_lt hi) with ⟨e, e'⟩ | ⟨_, e'⟩
        · rw [e']; exact .inr ⟨e.1, rfl⟩
        · rw [e']; exact .inl rfl

end Foxxll.ConfigQuery
