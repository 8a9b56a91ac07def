import Verif.Proofs.PoolFailAgree
/-
Without failures the two models of the pools agree: what C13 to C19 say about contents holds for the methods of C121 to C126.
-/
namespace Foxxll.PoolFail

variable {V : Type}

/-- Calls that are one step in both models, and the end of a request: same outcome. -/
theorem C121_agree (ordered : Bool) (s : Pool.St V) (h : Pool.Reach ordered s) (hi : s.pc = .idle) (d : List Nat) (op : Pool.Op V) (op' : Op) (ho : same op = some op')
    (hs : ∀ r, op = .serve r → ∃ s', Pool.step ordered s op = .ok s') : ∃ d', step (view d s) op' = out d' (Pool.step ordered s op) := by
  have hn := (Pool.reach_inv h).pfs
  cases op <;> simp only [same, Option.some.injEq, reduceCtorEq] at ho <;> subst ho
  case alloc => exact ⟨d, by simp only [step, Pool.step, hi, if_true]; rfl⟩
  case hint bid => exact ⟨d, by simp only [step, Pool.step, hi, if_true, hint_view d hn]; rfl⟩
  case read blk bid => exact ⟨d, by simp only [step, Pool.step, hi, if_true, read_view d s blk bid (s.last bid)]; rfl⟩
  case add blk => exact ⟨d, by simp only [step, Pool.step, hi, if_true]; rfl⟩
  case stealP =>
    refine ⟨d, ?_⟩
    simp only [step, Pool.step, hi, if_true]
    have hg : (view d s).pfree = s.pfree := rfl
    rw [hg]
    cases s.pfree.getLast? <;> rfl
  case addP blk => exact ⟨d, by simp only [step, Pool.step, hi, if_true]; rfl⟩
  case resizeP n =>
    obtain ⟨d', hd⟩ := presize_view d hn n
    exact ⟨d', by simp only [step, Pool.step, hi, if_true, hd]; rfl⟩
  case collect i =>
    refine ⟨d, ?_⟩
    simp only [step, Pool.step, hi, if_true]
    have hu : (view d s).upend[i]? = (s.upend[i]?).map fun e => ⟨e.blk, e.req⟩ := by simp [view]
    rw [hu]
    cases s.upend[i]? with
    | none => rfl
    | some e =>
      simp only [Option.map_some, pending_view, failed_view]
      cases Pool.isDone s e.req with
      | false => rfl
      | true => simp [out, view, eraseIdx_map']
  case serve r =>
    obtain ⟨s', h1⟩ := hs r rfl
    refine ⟨d, ?_⟩
    rw [h1]
    exact congrArg Out.ok (serve_view d (Pool.reach_inv h).ci.ids h1).1

/-- `write` in the model with contents is a call, ends of requests while it waits, and a return; here it is one call with these events. -/
theorem C121_agree_write (ordered : Bool) (s s1 : Pool.St V) (h : Pool.Reach ordered s) (hi : s.pc = .idle) (d : List Nat) (blk bid : Nat) (cw : List Nat) (cp : Bool)
    (h1 : Pool.step ordered s (.write blk bid cw cp) = .ok s1) :
    (s1.pc = .idle → step (view d s) (.write blk bid cw false cp [] false) = .ok (view d s1)) ∧
    (s1.pc ≠ .idle → ∀ rs s2 s3 c p, Serves ordered s1 rs s2 → Pool.step ordered s2 (.work c p) = .ok s3 →
      step (view d s) (.write blk bid cw false cp (rs.map .finish) false) = .ok (view d s3)) := by
  have hinv := Pool.reach_inv h
  simp only [Pool.step] at h1
  rw [if_pos hi] at h1
  split at h1
  · cases h1
  · rename_i ha
    injection h1 with h1
    have hw := wwrite_view d s blk bid cw (Pool.upd s.last bid (s.mem blk)) (by simpa using ha)
    generalize hs0 : Pool.wwrite { s with uidle := s.uidle.erase blk, last := Pool.upd s.last bid (s.mem blk) } blk bid cw = s0 at h1 hw
    have i0 : s0.pc = .idle := by rw [← hs0]; exact hi
    have q0 : s0.q.Pairwise (fun x y => x.id < y.id) := by
      rw [← hs0]
      simp only [Pool.wwrite, Pool.submit, Pool.dropStale]
      refine List.pairwise_append.2 ⟨hinv.ci.ids.filter _, List.pairwise_singleton .., fun x hx y hy => ?_⟩
      rw [List.mem_singleton] at hy
      subst hy
      exact hinv.ci.idlt x (List.mem_filter.1 hx).1
    have n0 : s0.pfs = s0.pfree.length := by rw [← hs0]; exact hinv.pfs
    simp only [step, write, hw]
    have hpc : (Pool.invalBegin s0 bid cp true).pc = .idle ∧ Pool.findP s0 bid = none ∨ (Pool.invalBegin s0 bid cp true).pc = .inval bid true := by
      unfold Pool.invalBegin
      cases hf : Pool.findP s0 bid with
      | none => exact .inl ⟨i0, rfl⟩
      | some e => exact .inr rfl
    rcases hpc with ⟨p1, p2⟩ | p1
    · rw [h1] at p1
      refine ⟨fun _ => ?_, fun hne => absurd p1 hne⟩
      have : invalidate (view d s0) bid cp [] = .ok (view d s0, false) := by
        unfold invalidate
        rw [findP_view, p2]
        rfl
      rw [this, ← h1]
      simp only [Pool.invalBegin, p2]
    · refine ⟨fun hid => (by rw [← h1, p1] at hid; cases hid), fun _ rs s2 s3 c p hsv hwk => ?_⟩
      rw [← h1] at hsv
      have p2 : s2.pc = .inval bid true := (serves_view d (s := Pool.invalBegin s0 bid cp true) (by
        unfold Pool.invalBegin
        split
        · exact q0
        · rename_i e _
          cases e.rd <;> cases cp <;> first | exact q0 | exact q0.filter _) hsv).2.2.1.trans p1
      have hwk : Pool.invalEnd s2 bid true = .ok s3 := by simpa only [Pool.step, p2] using hwk
      obtain ⟨s', g1, g2⟩ := inval_view d q0 n0 p1 i0 hsv hwk
      rw [g1]
      exact g2

/-- Likewise `invalidate`. -/
theorem C121_agree_invalidate (ordered : Bool) (s s1 : Pool.St V) (h : Pool.Reach ordered s) (hi : s.pc = .idle) (d : List Nat) (bid : Nat) (cp : Bool)
    (h1 : Pool.step ordered s (.invalidate bid cp) = .ok s1) :
    (s1.pc = .idle → step (view d s) (.invalidate bid cp []) = .ok (view d s1)) ∧
    (s1.pc ≠ .idle → ∀ rs s2 s3 c p, Serves ordered s1 rs s2 → Pool.step ordered s2 (.work c p) = .ok s3 →
      step (view d s) (.invalidate bid cp (rs.map .finish)) = .ok (view d s3)) := by
  have hinv := Pool.reach_inv h
  simp only [Pool.step] at h1
  rw [if_pos hi] at h1
  injection h1 with h1
  have q0 := hinv.ci.ids
  have q0 : s.q.Pairwise (fun x y => x.id < y.id) := q0
  cases hf : Pool.findP s bid with
  | none =>
    have e1 : s1 = s := by rw [← h1]; simp only [Pool.invalBegin, hf]
    refine ⟨fun _ => ?_, fun hne => absurd (by rw [e1]; exact hi) hne⟩
    simp only [step, invalidate, findP_view, hf, Option.map_none]
    rw [e1]
  | some e =>
    have p1 : (Pool.invalBegin s bid cp false).pc = .inval bid false := by simp only [Pool.invalBegin, hf]
    refine ⟨fun hid => (by rw [← h1, p1] at hid; cases hid), fun _ rs s2 s3 c p hsv hwk => ?_⟩
    rw [← h1] at hsv
    have p2 : s2.pc = .inval bid false := (serves_view d (s := Pool.invalBegin s bid cp false) (by
      unfold Pool.invalBegin
      split
      · exact q0
      · rename_i e _
        cases e.rd <;> cases cp <;> first | exact q0 | exact q0.filter _) hsv).2.2.1.trans p1
    have hwk : Pool.invalEnd s2 bid false = .ok s3 := by simpa only [Pool.step, p2] using hwk
    obtain ⟨s', g1, g2⟩ := inval_view d q0 hinv.pfs p1 hi hsv hwk
    simp only [step, g1]
    exact g2

/-- `steal` when no request ends during the call: `wait_any` takes the first block whose request has ended, and all such blocks are collected. -/
theorem C121_agree_steal (ordered : Bool) (s : Pool.St V) (hi : s.pc = .idle) (d : List Nat) :
    step (view d s) (.steal []) = out d (Pool.step ordered s (.steal (s.wbusy.findIdx? fun e => Pool.isDone s e.req) ((s.wbusy.map (·.req)).filter (Pool.isDone s)))) := by
  simp only [step, Pool.step, hi, if_true, wsteal_view]
  cases Pool.wsteal s (s.wbusy.findIdx? fun e => Pool.isDone s e.req) ((s.wbusy.map (·.req)).filter (Pool.isDone s)) with
  | ok x => rfl
  | _ => rfl

/-- The new pools agree. -/
theorem C121_agree_init (nw np : Nat) (mem disk : Nat → V) : view [] (Pool.init nw np mem disk) = init nw np := rfl

/-- A block is prefetched, and written while the read is under way: the call waits, the read ends, and the call returns. -/
example : ∃ s s1 s2 s3 : Pool.St Nat, Pool.Reach true s ∧ s.pc = .idle ∧ Pool.step true s (.write 2 7 [] false) = .ok s1 ∧ s1.pc ≠ .idle ∧
    Serves true s1 [0, 1] s2 ∧ Pool.step true s2 (.work none []) = .ok s3 := by
  have h := Pool.Reach.start (ordered := true) 1 1 (fun _ => 0) (fun _ => 0)
  have h := h.next .alloc trivial rfl
  have h := h.next (.hint 7) trivial rfl
  refine ⟨_, _, _, _, h, rfl, rfl, ?_, .one 1 (.one 0 .none rfl) rfl, rfl⟩
  intro hc
  cases hc

/-- The pool has no free block, and two writes, the second of which has ended. -/
example : ∃ s : Pool.St Nat, Pool.Reach true s ∧ s.pc = .idle ∧ s.wfree = [] ∧ (s.wbusy.findIdx? fun e => Pool.isDone s e.req) = some 1 := by
  have h := Pool.Reach.start (ordered := true) 0 0 (fun _ => 0) (fun _ => 0)
  have h := h.next .alloc trivial rfl
  have h := h.next .alloc trivial rfl
  have h := h.next (.write 0 7 [] false) ⟨by show 0 ∈ [0, 1]; simp, fun e he => by cases he⟩ rfl
  have h := h.next (.write 1 8 [] false) ⟨by show 1 ∈ [1]; simp, fun e he => by cases he⟩ rfl
  have h := h.next (.serve 1) trivial rfl
  exact ⟨_, h, rfl, rfl, rfl⟩

end Foxxll.PoolFail
