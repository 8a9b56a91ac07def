/-
Properties C121-C124: the pools when requests fail, when requests cannot be submitted and when memory runs out.
-/
import Verif.Proofs.PoolFail4
import Verif.Proofs.PoolFailAux

namespace Foxxll.PoolFail

/-! ### Concrete histories -/

/-- All histories. -/
def any : Op → Prop := fun _ => True

/-- Everywhere a block can be. -/
def places (s : St) : List Nat :=
  s.wfree ++ s.wbusy.map (·.blk) ++ s.pfree ++ s.pbusy.map (·.blk) ++ s.uidle ++ s.upend.map (·.blk) ++ s.deleted

/-! ### C121 -/

/-- **C121 is false**: `steal` takes the entry of the finished request out of the list and then calls `check_all_busy`; when this
finds a failed request it throws, and nobody has the block any more (write_pool.hpp:168-170). -/
theorem C121_false : ∃ s s' b, Reach any s ∧ Legal s (.steal []) ∧ step s (.steal []) = .throw s' ∧ b ∈ places s ∧ b ∉ places s' := by
  have hr : ∃ s, run (init 0 0) [.alloc, .alloc, .write 0 7 [] false false [] false, .write 1 8 [] false false [] false,
      .ev (.finish 0), .ev (.fail 1), .ev (.finish 1)] = some s ∧ legalB s (.steal []) = true ∧
      ∃ s', step s (.steal []) = .throw s' ∧ 0 ∈ places s ∧ 0 ∉ places s' := by
    refine ⟨_, rfl, rfl, _, rfl, ?_, ?_⟩ <;> decide
  obtain ⟨s, h1, h2, s', h3, h4, h5⟩ := hr
  exact ⟨s, s', 0, run_reach (Reach.start 0 0) (fun _ _ => trivial) h1, legalB_legal h2, h3, h4, h5⟩

/-- Likewise `hint` takes a free block out of the list before the submission, which may throw (prefetch_pool.hpp:222-236). -/
theorem C121_hint_false : ∃ s s' b, Reach any s ∧ Legal s (.hint 7 true true) ∧ step s (.hint 7 true true) = .throw s' ∧
    b ∈ places s ∧ b ∉ places s' :=
  ⟨init 1 1, _, 1, Reach.start 1 1, rfl, rfl, by decide, by decide⟩

/-- What holds in all histories: every block ever allocated is in exactly one place or lost, and a block that takes part in
a transfer is not free, not with the client as an idle block and not deleted. -/
theorem C121_partial {A : Op → Prop} (s : St) (h : Reach A s) :
    (places s ++ s.leaked).Perm (List.range s.nextBlk) ∧
    ∀ x ∈ s.q, x.2 ∉ s.wfree ∧ x.2 ∉ s.pfree ∧ x.2 ∉ s.uidle ∧ x.2 ∉ s.deleted := by
  have hi := reach_inv h
  constructor
  · apply List.perm_iff_count.2
    intro a
    have h1 := hi.cnt a
    have h2 := count_range' 0 s.nextBlk a
    rw [List.range_eq_range', h2]
    simp only [idle, ents, places, List.count_append, List.map_append, List.map_map, List.count_nil] at h1 ⊢
    have e1 : (s.wbusy.map ((fun x : Nat × Nat => x.1) ∘ fun e : WEnt => (e.blk, e.req))) = s.wbusy.map (·.blk) := rfl
    have e2 : (s.pbusy.map ((fun x : Nat × Nat => x.1) ∘ fun e : PEnt => (e.blk, e.req))) = s.pbusy.map (·.blk) := rfl
    have e3 : (s.upend.map ((fun x : Nat × Nat => x.1) ∘ fun e : UEnt => (e.blk, e.req))) = s.upend.map (·.blk) := rfl
    rw [e1, e2, e3] at h1
    split at h1 <;> split <;> omega
  · intro x hx
    have hc := hi.cnt x.2
    have key : 0 < ((ents s).map (·.1)).count x.2 + s.leaked.count x.2 := by
      rcases hi.own x hx with ho | ho
      · have : 0 < ((ents s).map (·.1)).count x.2 := List.count_pos_iff.2 (List.mem_map.2 ⟨_, ho, rfl⟩)
        omega
      · have : 0 < s.leaked.count x.2 := List.count_pos_iff.2 ho
        omega
    have hz : (idle s).count x.2 = 0 := by split at hc <;> omega
    have hn : x.2 ∉ idle s := List.count_eq_zero.1 hz
    simp only [idle, List.mem_append, not_or] at hn
    exact ⟨hn.1.1.1, hn.1.1.2, hn.1.2, hn.2⟩

/-- How blocks are lost: not by a call that returns, and at most one by a call that throws (the destructor: C122). -/
theorem C121_lost_partial (s s' : St) (op : Op) (hd : ∀ a b c, op ≠ .destroy a b c) :
    (step s op = .ok s' → s'.leaked = s.leaked) ∧
    (step s op = .throw s' → s'.leaked = s.leaked ∨ ∃ b, s'.leaked = s.leaked ++ [b]) := by
  have hd' : isDestroy op = false := by
    cases op <;> first | rfl | exact absurd rfl (hd _ _ _)
  refine ⟨(step_leaked hd').1, fun hs => ?_⟩
  obtain ⟨l, hl, h⟩ := (step_leaked hd').2 hs
  match l, hl with
  | [], _ => exact Or.inl (by simpa using h)
  | [b], _ => exact Or.inr ⟨b, h⟩
  | _ :: _ :: _, hl => simp at hl

/-- In histories without failing requests and submissions (running out of memory is allowed) no block is lost. -/
theorem C121_clean_partial (s : St) (h : Reach clean s) : s.leaked = [] ∧ (places s).Perm (List.range s.nextBlk) := by
  have h1 := (reach_clean h).2
  refine ⟨h1, ?_⟩
  have := (C121_partial s h).1
  rw [h1, List.append_nil] at this
  exact this

/-- A state with a failed and a pending write, a hinted block and a lost one. -/
example : ∃ s, Reach any s ∧ s.leaked = [0] ∧ places s = [1, 4, 3, 2] ∧ s.q = [(2, 4), (3, 2)] := by
  have h3 : ∃ s, run (init 0 0) [.alloc, .alloc, .alloc, .alloc, .alloc, .write 0 7 [] false false [] false,
      .write 1 8 [] false false [] false, .write 4 9 [] false false [] false,
      .ev (.finish 0), .ev (.fail 1), .ev (.finish 1), .steal [], .addP 3, .addP 2, .hint 5 true false] = some s ∧ s.leaked = [0] ∧
      places s = [1, 4, 3, 2] ∧ s.q = [(2, 4), (3, 2)] := ⟨_, rfl, rfl, rfl, rfl⟩
  obtain ⟨s, h1, h⟩ := h3
  exact ⟨s, run_reach (Reach.start 0 0) (fun _ _ => trivial) h1, h⟩

example : ∃ s, Reach clean s ∧ s.wbusy.length = 1 ∧ s.pbusy.length = 1 ∧ places s = [0, 1, 2] := by
  have h4 : ∃ s, run (init 1 1) [.alloc, .steal [], .write 0 7 [] false false [] false, .hint 5 true false] = some s ∧ s.wbusy.length = 1 ∧
      s.pbusy.length = 1 ∧ (places s) = [0, 1, 2] := ⟨_, rfl, rfl, rfl, rfl⟩
  obtain ⟨s, h1, a, b, c⟩ := h4
  refine ⟨s, run_reach (Reach.start 1 1) ?_ h1, a, b, c⟩
  intro op ho
  simp only [List.mem_cons, List.mem_nil_iff, or_false] at ho
  rcases ho with rfl | rfl | rfl | rfl
  · trivial
  · intro l hl; cases hl
  · exact ⟨rfl, rfl, fun r hr => by cases hr⟩
  · rfl

/-! ### C122 -/

/-- **C122 is false**: the exception of the first failed request ends the loop in the destructor; the later requests are not
waited for and their blocks are not freed (write_pool.hpp:106-119). -/
theorem C122_false : ∃ s s' r b, Reach any s ∧ Legal s (.destroy [] [] []) ∧ step s (.destroy [] [] []) = .ok s' ∧
    (∃ e ∈ s.wbusy, e.req = r ∧ e.blk = b) ∧ (r, b) ∈ s'.q ∧ b ∉ s'.deleted := by
  have hr : ∃ s, run (init 0 0) [.alloc, .alloc, .write 0 7 [] false false [] false, .write 1 8 [] false false [] false,
      .ev (.fail 0), .ev (.finish 0)] = some s ∧ legalB s (.destroy [] [] []) = true ∧
      ∃ s', step s (.destroy [] [] []) = .ok s' ∧ (∃ e ∈ s.wbusy, e.req = 1 ∧ e.blk = 1) ∧ (1, 1) ∈ s'.q ∧ 1 ∉ s'.deleted := by
    refine ⟨_, rfl, rfl, _, rfl, ?_, ?_, ?_⟩ <;> decide
  obtain ⟨s, h1, h2, s', h⟩ := hr
  exact ⟨s, s', 1, 1, run_reach (Reach.start 0 0) (fun _ _ => trivial) h1, legalB_legal h2, h⟩

/-- If none of the requests of the pools has failed by then, the destructor has waited for all of them and freed all blocks. -/
theorem C122_partial (s s' : St) (e1 e2 : List (List Ev)) (ord : List PEnt) (hs : step s (.destroy e1 e2 ord) = .ok s')
    (hw : ∀ e ∈ s.wbusy, e.req ∉ s'.err) (hp : ∀ e ∈ s.pbusy, e.req ∉ s'.err) :
    (∀ b ∈ s.wfree ++ s.wbusy.map (·.blk) ++ s.pfree ++ s.pbusy.map (·.blk), b ∈ s'.deleted) ∧ s'.leaked = s.leaked ∧
    (∀ e ∈ s.wbusy, ∀ x ∈ s'.q, x.1 ≠ e.req) ∧ (∀ e ∈ s.pbusy, ∀ x ∈ s'.q, x.1 ≠ e.req) := by
  obtain ⟨s1, s2, h1, h2, rfl⟩ := destroy_ok hs
  unfold destroyP at h2
  split at h2
  · rename_i hperm
    have hperm := List.isPerm_iff.1 hperm
    have hpb : s1.pbusy = s.pbusy := (destroy_end h1).2.2.2.2.1
    have hpf : s1.pfree = s.pfree := (destroy_end h1).2.2.1
    obtain ⟨_, _, _, _, _, _, _, _, he, hq, _⟩ := destroy_end h2
    obtain ⟨a1, a2, a3⟩ := destroyLoop_done h1 (by
      intro p hp'
      obtain ⟨e, he', rfl⟩ := List.mem_map.1 hp'
      exact fun hh => hw e he' (he _ hh))
    obtain ⟨b1, b2, b3⟩ := destroyLoop_done h2 (by
      intro p hp'
      obtain ⟨e, he', rfl⟩ := List.mem_map.1 hp'
      exact hp e (by rw [← hpb]; exact hperm.mem_iff.1 he'))
    refine ⟨fun b hb => ?_, b2.trans a2, fun e he' x hx => ?_, fun e he' x hx => ?_⟩
    · show b ∈ s2.deleted
      rw [b1]
      simp only [a1, hpf, List.mem_append, List.map_map] at hb ⊢
      rcases hb with ((hb | hb) | hb) | hb
      · exact Or.inl (Or.inl (Or.inl (Or.inr hb)))
      · exact Or.inl (Or.inl (Or.inr hb))
      · exact Or.inl (Or.inr hb)
      · obtain ⟨e, he', rfl⟩ := List.mem_map.1 hb
        exact Or.inr (List.mem_map.2 ⟨e, hperm.mem_iff.2 (by rw [hpb]; exact he'), rfl⟩)
    · exact a3 (e.blk, e.req) (List.mem_map.2 ⟨e, he', rfl⟩) x (hq x hx)
    · exact b3 (e.blk, e.req) (List.mem_map.2 ⟨e, hperm.mem_iff.2 (by rw [hpb]; exact he'), rfl⟩) x hx
  · cases h2

/-- In any case every block of the pools is deleted or lost, nothing is left in the pools, no exception leaves the
destructor, and it ends when the I/O threads finish the requests. -/
theorem C122_end_partial (s : St) :
    (∀ s' e1 e2 ord, step s (.destroy e1 e2 ord) = .ok s' →
      s'.wfree = [] ∧ s'.wbusy = [] ∧ s'.pfree = [] ∧ s'.pbusy = [] ∧ s'.uidle = s.uidle ∧ s'.upend = s.upend ∧
      ∀ b ∈ s.wfree ++ s.wbusy.map (·.blk) ++ s.pfree ++ s.pbusy.map (·.blk), b ∈ s'.deleted ∨ b ∈ s'.leaked) ∧
    (∀ s' e1 e2 ord, step s (.destroy e1 e2 ord) ≠ .throw s') ∧
    (∃ s' e1 e2 ord, step s (.destroy e1 e2 ord) = .ok s') := by
  refine ⟨fun s' e1 e2 ord hs => ?_, fun s' e1 e2 ord => destroy_no_throw _ _ _ _ _, ?_⟩
  · obtain ⟨c1, c2, c3, _, c4, _, c5, c6⟩ := destroy_empty hs
    refine ⟨c1, c2, c3, c4, c6, c5, fun b hb => ?_⟩
    obtain ⟨s1, s2, h1, h2, rfl⟩ := destroy_ok hs
    unfold destroyP at h2
    split at h2
    · rename_i hperm
      have hperm := List.isPerm_iff.1 hperm
      obtain ⟨_, _, hpf, _, hpb, _, _, _, _, _, dl1, ll1, d1, l1, m1⟩ := destroy_end h1
      obtain ⟨_, _, _, _, _, _, _, _, _, _, dl2, ll2, d2, l2, m2⟩ := destroy_end h2
      show b ∈ s2.deleted ∨ b ∈ s2.leaked
      rw [d2, l2]
      simp only [d1, l1]
      simp only at hpf hpb
      simp only [List.mem_append] at hb
      rcases hb with ((hb | hb) | hb) | hb
      · exact Or.inl (by simp [hb])
      · have : b ∈ dl1 ++ ll1 := by
          rw [m1]; obtain ⟨e, he, rfl⟩ := List.mem_map.1 hb
          exact List.mem_map.2 ⟨_, List.mem_map.2 ⟨e, he, rfl⟩, rfl⟩
        rcases List.mem_append.1 this with h | h
        · exact Or.inl (by simp [h])
        · exact Or.inr (by simp [h])
      · exact Or.inl (by simp [hpf, hb])
      · have : b ∈ dl2 ++ ll2 := by
          rw [m2]; obtain ⟨e, he, rfl⟩ := List.mem_map.1 hb
          exact List.mem_map.2 ⟨_, List.mem_map.2 ⟨e, hperm.mem_iff.2 (by rw [hpb]; exact he), rfl⟩, rfl⟩
        rcases List.mem_append.1 this with h | h
        · exact Or.inl (by simp [h])
        · exact Or.inr (by simp [h])
    · cases h2
  · obtain ⟨s1, h1⟩ := destroyLoop_finishes { s with deleted := s.deleted ++ s.wfree, wfree := [], wbusy := [] } (s.wbusy.map (fun e => (e.blk, e.req)))
    obtain ⟨s2, h2⟩ := destroyLoop_finishes { s1 with deleted := s1.deleted ++ s1.pfree, pfree := [], pfs := 0, pbusy := [] }
      (s1.pbusy.map (fun e => (e.blk, e.req)))
    refine ⟨{ s2 with dead := true }, (s.wbusy.map (fun e => (e.blk, e.req))).map (fun p => [Ev.finish p.2]),
      (s1.pbusy.map (fun e => (e.blk, e.req))).map (fun p => [Ev.finish p.2]), s1.pbusy, ?_⟩
    show destroy s _ _ _ = _
    unfold destroy destroyW
    rw [h1]
    simp only [destroyP]
    rw [if_pos (List.isPerm_iff.2 (List.Perm.refl _)), h2]

example : ∃ s s', Reach any s ∧ s.wbusy.length = 1 ∧ s.pbusy.length = 1 ∧ s.q.length = 2 ∧
    step s (.destroy [[.finish 0]] [[.finish 1]] s.pbusy) = .ok s' ∧ s'.deleted = [0, 1] ∧ s'.q = [] ∧ s'.leaked = [] := by
  have h : ∃ s, run (init 1 1) [.steal [], .write 0 7 [] false false [] false, .hint 5 true false] = some s ∧
    s.wbusy.length = 1 ∧ s.pbusy.length = 1 ∧ s.q.length = 2 ∧
    ∃ s', step s (.destroy [[.finish 0]] [[.finish 1]] s.pbusy) = .ok s' ∧ s'.deleted = [0, 1] ∧ s'.q = [] ∧ s'.leaked = [] :=
    ⟨_, rfl, rfl, rfl, rfl, _, rfl, rfl, rfl, rfl⟩
  obtain ⟨s, h1, a, b, c, s', d⟩ := h
  exact ⟨s, s', run_reach (Reach.start 1 1) (fun _ _ => trivial) h1, a, b, c, d⟩

/-! ### C123 -/

/-- **C123 is false**: a failed write stays the first busy entry, and `steal` throws each time it is called: the pool with one
block does not give it back. -/
theorem C123_false : ∃ s, Reach any s ∧ wsize s = 1 ∧ s.q = [] ∧
    ∀ evs, ∃ s', step s (.steal evs) = .throw s' ∧ s'.wbusy = s.wbusy ∧ s'.wfree = s.wfree ∧ (∀ r ∈ s.err, r ∈ s'.err) := by
  have hr : ∃ s, run (init 1 0) [.steal [], .write 0 7 [] false false [] false, .ev (.fail 0), .ev (.finish 0)] = some s ∧
      wsize s = 1 ∧ s.q = [] ∧ s.wfree = [] ∧ s.wbusy = [⟨0, 0, some 7⟩] ∧ failed s 0 = true := ⟨_, rfl, rfl, rfl, rfl, rfl, rfl⟩
  obtain ⟨s, h1, h2, h3, h4, h5, h6⟩ := hr
  refine ⟨s, run_reach (Reach.start 1 0) (fun _ _ => trivial) h1, h2, h3, fun evs => ?_⟩
  obtain ⟨q', err', hw, hm⟩ := wsteal_poisoned h4 h5 h6 evs
  refine ⟨{ s with q := q', err := err' }, ?_, rfl, rfl, hm⟩
  simp only [step, hw]

/-- In general: with the first busy write failed and no free block, every `steal` throws and changes nothing in the pools. -/
theorem C123_steal_false (s : St) (e : WEnt) (es : List WEnt) (hf : s.wfree = []) (hb : s.wbusy = e :: es) (he : e.req ∈ s.err)
    (evs : List (List Ev)) :
    ∃ q' err', step s (.steal evs) = .throw { s with q := q', err := err' } ∧ (∀ r ∈ s.err, r ∈ err') := by
  obtain ⟨q', err', hw, hm⟩ := wsteal_poisoned hf hb (by simpa [failed] using he) evs
  exact ⟨q', err', by simp only [step, hw], hm⟩

/-- Likewise a prefetched block whose request has failed: every `write` to its identifier throws after it has submitted its own
request and has taken the block of the client; the failed entry stays (read_write_pool.hpp:108-113). -/
theorem C123_write_false {A : Op → Prop} (s : St) (blk bid : Nat) (e : PEnt) (cw : List Nat) (cp sp : Bool) (evs : List Ev) (h : Reach A s)
    (hb : blk ∈ s.uidle) (he : e ∈ s.pbusy) (hid : e.bid = bid) (hf : e.req ∈ s.err) (hd : ∀ x ∈ s.q, x.1 ≠ e.req) :
    ∃ s', step s (.write blk bid cw false cp evs sp) = .throw s' ∧ e ∈ s'.pbusy ∧ e.req ∈ s'.err ∧ (∀ x ∈ s'.q, x.1 ≠ e.req) ∧
      s'.wbusy.length = s.wbusy.length + 1 ∧ s'.uidle = s.uidle.erase blk := by
  obtain ⟨hids, hnd⟩ := reach_ids h
  have hfind : findP s bid = some e := findP_of_mem hnd he hid
  have hlt : e.req < s.nextReq := hids (e.blk, e.req) (by
    simp only [ents, List.mem_append]
    exact Or.inl (Or.inr (List.mem_map.2 ⟨e, he, rfl⟩)))
  have hpend : pending s e.req = false := by
    rw [← Bool.not_eq_true, pending_iff]
    rintro ⟨x, hx, hr⟩
    exact hd x hx hr
  have hnot : ¬ ∃ w ∈ s.wbusy, w.bid = some bid ∧ w.blk = blk := by
    rintro ⟨w, hw, _, hwb⟩
    have hc := (reach_inv h).cnt blk
    have h1 : 0 < (idle s).count blk := List.count_pos_iff.2 (by simp only [idle, List.mem_append]; exact Or.inl (Or.inr hb))
    have h2 : 0 < ((ents s).map (·.1)).count blk := List.count_pos_iff.2 (List.mem_map.2 ⟨(w.blk, w.req), by
      simp only [ents, List.mem_append]; exact Or.inl (Or.inl (List.mem_map.2 ⟨w, hw, rfl⟩)), hwb⟩)
    split at hc <;> omega
  obtain ⟨s', hw, hp, hf', hd', hl, hu⟩ := write_poisoned (cw := cw) (cp := cp) (sp := sp) (evs := evs) hfind (by simpa [failed] using hf) hpend hlt hnot
  exact ⟨s', hw, by rw [hp]; exact he, by simpa [failed] using hf', not_pending hd', hl, hu⟩

/-- `steal` throws only if the pool has no free block and one of its requests has failed. -/
theorem C123_reason_partial (s s' : St) (evs : List (List Ev)) (hs : step s (.steal evs) = .throw s') :
    s.wfree = [] ∧ ∃ e ∈ s.wbusy, e.req ∈ s'.err := by
  simp only [step] at hs
  split at hs
  · cases hs
  · rename_i s1 hw
    injection hs with hs; subst hs
    obtain ⟨h1, e, he, hf⟩ := wsteal_threw hw
    exact ⟨h1, e, he, by simpa [failed] using hf⟩
  all_goals cases hs

/-- The way out: `read` hands a failed entry of the prefetch pool to the client, and the pool is rid of it; when the client waits
for the request it gets the exception and has the block back. -/
theorem C123_read_partial {A : Op → Prop} (s s' : St) (blk bid : Nat) (e : PEnt) (useW sub : Bool) (h : Reach A s)
    (he : e ∈ s.pbusy) (hid : e.bid = bid) (hs : step s (.read blk bid useW sub) = .ok s') :
    bid ∉ s'.pbusy.map (·.bid) ∧ psize s' = psize s ∧
    (e.req ∈ s.err → (∀ x ∈ s.q, x.1 ≠ e.req) →
      ∃ s'', step s' (.collect s.upend.length) = .throw s'' ∧ e.blk ∈ s''.uidle ∧ s''.upend = s.upend) := by
  obtain ⟨hids, hnd⟩ := reach_ids h
  have hfind : findP s bid = some e := findP_of_mem hnd he hid
  simp only [step, read, hfind] at hs
  injection hs with hs; subst hs
  refine ⟨?_, ?_, fun hf hd => ?_⟩
  · intro hmem
    have hp := (List.perm_cons_erase he).map (·.bid)
    have hnd' := hp.nodup_iff.1 hnd
    rw [List.map_cons, List.nodup_cons] at hnd'
    rw [← hid] at hmem
    exact hnd'.1 hmem
  · have := List.length_erase_of_mem he
    have h0 : 0 < s.pbusy.length := List.length_pos_of_mem he
    simp only [psize]; omega
  · have hpend : pending s e.req = false := by
      rw [← Bool.not_eq_true, pending_iff]
      rintro ⟨x, hx, hr⟩
      exact hd x hx hr
    refine ⟨{ s with pfree := s.pfree ++ [blk], pfs := s.pfs + 1, pbusy := s.pbusy.erase e, uidle := s.uidle.erase blk ++ [e.blk] }, ?_, ?_, rfl⟩
    · simp only [step, List.getElem?_concat_length]
      rw [if_neg (by show ¬ pending s e.req = true; rw [hpend]; simp), if_pos (by simpa [failed] using hf)]
      simp [List.eraseIdx_append_of_length_le]
    · simp

/-- A failed hinted block (of identifier 5) and an idle block of the client, as in `C123_write_false` and `C123_read_partial`. -/
example : ∃ s, Reach any s ∧ 0 ∈ s.uidle ∧ ⟨5, 1, 0, true⟩ ∈ s.pbusy ∧ 0 ∈ s.err ∧ s.q = [] ∧
    (∃ s', step s (.write 0 5 [] false false [] false) = .throw s' ∧ s'.wbusy.length = 1) ∧
    (∃ s', step s (.read 0 5 true false) = .ok s' ∧ s'.pbusy = [] ∧ s'.pfree = [0]) := by
  have h : ∃ s, run (init 1 1) [.steal [], .hint 5 true false, .ev (.fail 0), .ev (.finish 0)] = some s ∧ 0 ∈ s.uidle ∧
      ⟨5, 1, 0, true⟩ ∈ s.pbusy ∧ 0 ∈ s.err ∧ s.q = [] ∧
      (∃ s', step s (.write 0 5 [] false false [] false) = .throw s' ∧ s'.wbusy.length = 1) ∧
      (∃ s', step s (.read 0 5 true false) = .ok s' ∧ s'.pbusy = [] ∧ s'.pfree = [0]) :=
    ⟨_, rfl, by decide, by decide, by decide, rfl, ⟨_, rfl, rfl⟩, ⟨_, rfl, rfl, rfl⟩⟩
  obtain ⟨s, h1, h⟩ := h
  exact ⟨s, run_reach (Reach.start 1 1) (fun _ _ => trivial) h1, h⟩

/-! ### C124 -/

/-- **C124 is false**: `prefetch_pool::resize` raises `free_blocks_size` before it allocates (prefetch_pool.hpp:364-366); if an
allocation fails the counter is too large, and a later `hint` takes the last element of an empty list. -/
theorem C124_false : ∃ s s', Reach any s ∧ Legal s (.resizeP 2 0) ∧ step s (.resizeP 2 0) = .throw s' ∧
    s'.pfs ≠ s'.pfree.length ∧ ∃ s'', step s' (.hint 7 true false) = .ok s'' ∧ Legal s'' (.hint 8 true false) ∧
    step s'' (.hint 8 true false) = .ub :=
  ⟨init 0 1, _, Reach.start 0 1, rfl, rfl, by decide, _, rfl, rfl, rfl⟩

/-- `free_blocks_size` is never smaller than the list; without failing allocations in `resize` it is its length, whatever requests fail, and no
method takes an element of an empty list. -/
theorem C124_partial {A : Op → Prop} (s : St) :
    (Reach A s → s.pfree.length ≤ s.pfs) ∧
    (Reach allocOk s → s.pfs = s.pfree.length ∧ psize s = s.pfree.length + s.pbusy.length ∧ ∀ op, step s op ≠ .ub) := by
  refine ⟨reach_pfs, fun h => ?_⟩
  have h1 := reach_pfs_eq h
  refine ⟨h1, by simp [psize, h1], fun op => ?_⟩
  exact step_no_ub h1

/-- A history in which requests fail and a block gets lost, but memory does not run out. -/
example : ∃ s, Reach allocOk s ∧ s.pfs = 2 ∧ s.err = [0] ∧ s.leaked = [2] := by
  have h : ∃ s, run (init 1 1) [.steal [], .hint 5 true false, .ev (.fail 0), .ev (.finish 0), .write 0 5 [] false false [] false,
      .resizeP 3 3, .resizeP 2 2, .hint 6 true true, .resizeP 3 3] = some s ∧ s.pfs = 2 ∧ s.err = [0] ∧ s.leaked = [2] := ⟨_, rfl, rfl, rfl, rfl⟩
  obtain ⟨s, h1, h⟩ := h
  refine ⟨s, run_reach (Reach.start 1 1) (fun op ho => ?_) h1, h⟩
  simp only [List.mem_cons, List.mem_nil_iff, or_false] at ho
  rcases ho with rfl | rfl | rfl | rfl | rfl | rfl | rfl | rfl | rfl <;> simp [allocOk]

end Foxxll.PoolFail
