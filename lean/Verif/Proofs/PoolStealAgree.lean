import Verif.Spec.PoolStealAgree
import Verif.Proofs.PoolFailAgree
/-
Lemmas for `Verif.Props.PoolStealAgree`.
-/
namespace Foxxll.PoolFail

variable {V : Type}

theorem serve_w {ordered : Bool} {s s' : Pool.St V} {r : Nat} (h : Pool.step ordered s (.serve r) = .ok s') : s'.wbusy = s.wbusy ∧ s'.wfree = s.wfree := by
  simp only [Pool.step] at h
  split at h
  · cases h
  · split at h
    · split at h
      · cases h
      · split at h <;> cases h <;> exact ⟨rfl, rfl⟩
    · cases h

theorem serves_w {ordered : Bool} {s s' : Pool.St V} {rs : List Nat} (h : Serves ordered s rs s') : s'.wbusy = s.wbusy ∧ s'.wfree = s.wfree := by
  induction h with
  | none => exact ⟨rfl, rfl⟩
  | one r _ hs ih => exact ⟨(serve_w hs).1.trans ih.1, (serve_w hs).2.trans ih.2⟩

/-- The first loop of `wait_any` when no request has ended. -/
theorem scan_asleep {t : St} (ht : t.err = []) (E : List (List Ev)) : ∀ (l : List WEnt) (i : Nat), (∀ e ∈ l, pending t e.req = true) →
    scan t (List.replicate l.length [] ++ E) l i = (t, E, .none)
  | [], i, _ => rfl
  | e :: l, i, h => by
    have hf : failed t e.req = false := by simp [failed, ht]
    unfold scan
    show (if failed t e.req then (t, List.replicate l.length [] ++ E, Scan.threw) else if pending t e.req then scan t (List.replicate l.length [] ++ E) l (i + 1) else
      (t, List.replicate l.length [] ++ E, Scan.found i)) = _
    rw [if_neg (by simp [hf]), if_pos (h e (by simp))]
    exact scan_asleep ht E l (i + 1) fun x hx => h x (by simp [hx])

theorem waitAny_quiet (d : List Nat) (s : Pool.St V) : waitAny (view d s) [] = (view d s, [], match firstDone s with | none => .none | some k => .found k) := by
  unfold waitAny firstDone
  rw [scan_quiet rfl, findIdx_view]
  cases hi : s.wbusy.findIdx? (fun e => Pool.isDone s e.req) with
  | some k => simp
  | none =>
    simp only [List.headD_nil, events, List.foldl_nil, List.tail_nil]
    rw [scan_quiet rfl, findIdx_view, hi]

theorem waitAny_asleep (d : List Nat) {ordered : Bool} {s s1 : Pool.St V} (hq : s.q.Pairwise (fun x y => x.id < y.id)) (hn : firstDone s = none) {rs : List Nat} (h : Serves ordered s rs s1) :
    waitAny (view d s) (sleeping s rs) = (view d s1, [], match firstDone s1 with | none => .none | some k => .found k) := by
  have hp : ∀ e ∈ (view d s).wbusy, pending (view d s) e.req = true := by
    intro e he
    obtain ⟨e0, h0, rfl⟩ := List.mem_map.1 he
    rw [pending_view]
    unfold firstDone at hn
    have := List.findIdx?_eq_none_iff.1 hn e0 h0
    simp [this]
  have hl : s.wbusy.length = (view d s).wbusy.length := by simp [view]
  have hev := (serves_view d hq h).1
  unfold waitAny sleeping
  rw [hl, scan_asleep rfl _ _ 0 hp]
  simp only [List.headD_cons, List.tail_cons, hev]
  have hb : (view d s).wbusy = (view d s1).wbusy := by simp [view, (serves_w h).1]
  rw [hb, scan_quiet rfl, findIdx_view]
  unfold firstDone
  cases s1.wbusy.findIdx? (fun e => Pool.isDone s1 e.req) <;> simp

/-- `steal` that sleeps in `wait_any`. -/
theorem wsteal_asleep (d : List Nat) {ordered : Bool} {s s1 : Pool.St V} (hq : s.q.Pairwise (fun x y => x.id < y.id)) (hf : s.wfree = []) (hn : firstDone s = none) {rs : List Nat}
    (h : Serves ordered s rs s1) : wsteal (view d s) (sleeping s rs) = wsteal (view d s1) [] := by
  have h1 := serves_w h
  have hw : wsize (view d s) = wsize (view d s1) := by simp [wsize, view, h1.1, h1.2]
  have hg : (view d s).wfree = [] := hf
  have hg1 : (view d s1).wfree = [] := h1.2.trans hf
  unfold wsteal
  rw [hw, hg, hg1, waitAny_quiet, waitAny_asleep d hq hn h]
  simp only [List.getLast?_nil]

/-- Steps of `steal` in the model with contents keep what is needed here. -/
theorem wsteal_q {s s' : Pool.St V} {c : Option Nat} {p : List Nat} {b : Nat} (h : Pool.wsteal s c p = .ok (s', b)) : s'.q = s.q ∧ s'.pc = s.pc := by
  unfold Pool.wsteal at h
  split at h
  · cases h
  · split at h
    · cases h; exact ⟨rfl, rfl⟩
    · split at h
      · cases h
      · split at h
        · cases h
        · split at h
          · cases h; exact ⟨rfl, rfl⟩
          · cases h

/-- One turn of the loop of `resize`. -/
theorem turn {ordered : Bool} {s s1 : Pool.St V} {k : Nat} (hpc : s.pc = .resizing (k + 1)) {c : Option Nat} {p : List Nat} (h : Pool.step ordered s (.work c p) = .ok s1) :
    ∃ s' b, Pool.wsteal s c p = .ok (s', b) ∧ s1 = { s' with pc := .resizing k } := by
  simp only [Pool.step, hpc] at h
  split at h
  · rename_i s' b hw
    cases h
    exact ⟨s', b, hw, rfl⟩
  · cases h
  · cases h
  · cases h

theorem shrinks_view {ordered : Bool} {s s' : Pool.St V} {evss : List (List (List Ev))} (h : Shrinks ordered s evss s') :
    ∀ d k, s.pc = .resizing k → s.q.Pairwise (fun x y => x.id < y.id) → ∃ d', stealN (view d s) evss k = .ok (view d' s') := by
  have quiet : ∀ (d : List Nat) (s : Pool.St V) s1 b, Pool.wsteal s (firstDone s) (allDone s) = .ok (s1, b) → wsteal (view d s) [] = .ok (view d s1, b) := by
    intro d s s1 b hw
    have := wsteal_view d s
    unfold firstDone allDone at hw
    rw [hw] at this
    exact this
  induction h with
  | stop hpc hs =>
    intro d k hk _
    rw [hpc] at hk
    cases hk
    simp only [Pool.step, hpc] at hs
    cases hs
    exact ⟨d, rfl⟩
  | @now s s1 s' k evss hpc hs _ ih =>
    intro d k' hk hq
    rw [hpc] at hk
    cases hk
    obtain ⟨s0, b, hw, rfl⟩ := turn hpc hs
    obtain ⟨hq0, _⟩ := wsteal_q hw
    obtain ⟨d', hd⟩ := ih (d ++ [b]) k rfl (by show s0.q.Pairwise _; rw [hq0]; exact hq)
    refine ⟨d', ?_⟩
    simp only [stealN, List.headD_cons, List.tail_cons, quiet d s s0 b hw]
    exact hd
  | @sleep s s1 s2 s' k evss rs hpc hf hn hsv hs _ ih =>
    intro d k' hk hq
    rw [hpc] at hk
    cases hk
    obtain ⟨_, hq1, hpc1, _⟩ := serves_view d hq hsv
    obtain ⟨s0, b, hw, rfl⟩ := turn (hpc1.trans hpc) hs
    obtain ⟨hq0, _⟩ := wsteal_q hw
    obtain ⟨d', hd⟩ := ih (d ++ [b]) k rfl (by show s0.q.Pairwise _; rw [hq0]; exact hq1)
    refine ⟨d', ?_⟩
    simp only [stealN, List.headD_cons, List.tail_cons, wsteal_asleep d hq hf hn hsv, quiet d s1 s0 b hw]
    exact hd

end Foxxll.PoolFail
