/-
Property C126: a write to the pools replaces the older versions of its block, and only these.
-/
import Verif.Proofs.PoolFail5
import Verif.Props.PoolFail

namespace Foxxll.PoolFail

/-- **C126 is false**: if the submission of a write throws, the older write to the same identifier has been cancelled before (write_pool.hpp:134-146): it
is neither carried out nor does an entry with the identifier exist any more. -/
theorem C126_false : ∃ s s' r, Reach any s ∧ Legal s (.write 1 7 [r] true false [] false) ∧ (∃ e ∈ s.wbusy, e.bid = some 7 ∧ e.req = r) ∧
    (∃ x ∈ s.q, x.1 = r) ∧ r ∉ s.err ∧ step s (.write 1 7 [r] true false [] false) = .throw s' ∧ (∀ x ∈ s'.q, x.1 ≠ r) ∧
    7 ∉ s'.wbusy.filterMap (·.bid) ∧ 7 ∉ s'.pbusy.map (·.bid) := by
  have hr : ∃ s, run (init 0 0) [.alloc, .alloc, .write 0 7 [] false false [] false] = some s ∧ legalB s (.write 1 7 [0] true false [] false) = true ∧
      (∃ e ∈ s.wbusy, e.bid = some 7 ∧ e.req = 0) ∧ (∃ x ∈ s.q, x.1 = 0) ∧ 0 ∉ s.err ∧
      ∃ s', step s (.write 1 7 [0] true false [] false) = .throw s' ∧ (∀ x ∈ s'.q, x.1 ≠ 0) ∧ 7 ∉ s'.wbusy.filterMap (·.bid) ∧ 7 ∉ s'.pbusy.map (·.bid) := by
    refine ⟨_, rfl, rfl, ⟨⟨0, 0, some 7⟩, by decide, rfl, rfl⟩, ⟨(0, 0), by decide, rfl⟩, by decide, _, rfl, ?_, ?_, ?_⟩ <;> decide
  obtain ⟨s, h1, h2, h3, h4, h5, s', h6, h7⟩ := hr
  exact ⟨s, s', 0, run_reach (Reach.start 0 0) (fun _ _ => trivial) h1, legalB_legal h2, h3, h4, h5, h6, h7⟩

/-- **C126, writes that return**: in all histories, with failing requests and exceptions, the identifiers of the entries of each pool are distinct; after a write that returns, the only
entry with its identifier is the one for the block just written: in the prefetch pool (not to be cancelled as a hint) if the identifier was hinted, otherwise
in the write pool; and its request is in the queue unless it has been served.  Missing: writes left by an exception (`C126_false`). -/
theorem C126_partial {A : Op → Prop} (s : St) (h : Reach A s) :
    (s.wbusy.filterMap (·.bid)).Nodup ∧ (s.pbusy.map (·.bid)).Nodup ∧
    ∀ s' blk bid cw sw cp evs sp, step s (.write blk bid cw sw cp evs sp) = .ok s' →
      ((s.nextReq, blk) ∈ s'.q ∨ Ev.finish s.nextReq ∈ evs) ∧
      (bid ∉ s.pbusy.map (·.bid) → bid ∉ s'.pbusy.map (·.bid) ∧ s'.wbusy.filter (fun e => e.bid == some bid) = [⟨blk, s.nextReq, some bid⟩]) ∧
      (bid ∈ s.pbusy.map (·.bid) → s'.pbusy.filter (fun e => e.bid == bid) = [⟨bid, blk, s.nextReq, false⟩] ∧ bid ∉ s'.wbusy.filterMap (·.bid)) := by
  refine ⟨reach_wids h, (reach_ids h).2, fun s' blk bid cw sw cp evs sp hs => ?_⟩
  obtain ⟨h1, h2, h3⟩ := write_entry h hs
  refine ⟨h1, h2, fun hb => ⟨(h3 hb).1, fun hm => ?_⟩⟩
  obtain ⟨e, he, heb⟩ := List.mem_filterMap.1 hm
  exact (h3 hb).2 e he heb

/-- A second write to an identifier, and one to a hinted identifier. -/
example : ∃ s s1 s2, Reach any s ∧ s.wbusy = [⟨0, 1, some 7⟩] ∧ s.pbusy.map (·.bid) = [5] ∧
    step s (.write 1 7 [] false false [] false) = .ok s1 ∧ s1.wbusy = [⟨0, 1, none⟩, ⟨1, 2, some 7⟩] ∧
    step s (.write 1 5 [] false true [] false) = .ok s2 ∧ s2.pbusy = [⟨5, 1, 2, false⟩] := by
  have h3 : ∃ s s1 s2, run (init 0 0) [.alloc, .alloc, .alloc, .addP 2, .hint 5 true false, .write 0 7 [] false false [] false] = some s ∧
      s.wbusy = [⟨0, 1, some 7⟩] ∧ s.pbusy.map (·.bid) = [5] ∧ step s (.write 1 7 [] false false [] false) = .ok s1 ∧
      s1.wbusy = [⟨0, 1, none⟩, ⟨1, 2, some 7⟩] ∧ step s (.write 1 5 [] false true [] false) = .ok s2 ∧ s2.pbusy = [⟨5, 1, 2, false⟩] :=
    ⟨_, _, _, rfl, rfl, rfl, rfl, rfl, rfl, rfl⟩
  obtain ⟨s, s1, s2, h1, h⟩ := h3
  exact ⟨s, s1, s2, run_reach (Reach.start 0 0) (fun _ _ => trivial) h1, h⟩

/-- **C126, other requests**: whatever a call does and however it ends, a request that is in the queue before it is in the queue afterwards unless an I/O thread
served it, or it has not failed, `cancel()` came in time, and it was made obsolete by the call: a write of the write pool to the identifier that is written, or a read for a hint of
the identifier that is written or invalidated.  A write that was handed over to the prefetch pool is not cancelled. -/
theorem C126_cancel_partial (s s' : St) (op : Op) (hs : step s op = .ok s' ∨ step s op = .throw s') (x : Nat × Nat) (hx : x ∈ s.q) (hn : x ∉ s'.q) :
    Ev.finish x.1 ∈ op.evs ∨
    (x.1 ∉ s.err ∧
      ((∃ blk bid cw sw cp evs sp, op = .write blk bid cw sw cp evs sp ∧
          ((x.1 ∈ cw ∧ ∃ e ∈ s.wbusy, e.bid = some bid ∧ e.req = x.1) ∨ (cp = true ∧ ∃ e ∈ s.pbusy, e.bid = bid ∧ e.req = x.1 ∧ e.rd = true))) ∨
       ∃ bid evs, op = .invalidate bid true evs ∧ ∃ e ∈ s.pbusy, e.bid = bid ∧ e.req = x.1 ∧ e.rd = true)) := by
  rcases (step_keep hs).1 x hx with h | h | h
  · exact absurd h hn
  · exact .inl h
  · refine .inr ?_
    cases op with
    | write blk bid cw sw cp evs sp =>
      rcases h with ⟨h1, h2, h3⟩ | ⟨h1, h2, h3⟩
      · exact ⟨h1, .inl ⟨blk, bid, cw, sw, cp, evs, sp, rfl, .inl ⟨h2, h3⟩⟩⟩
      · exact ⟨h2, .inl ⟨blk, bid, cw, sw, cp, evs, sp, rfl, .inr ⟨h1, h3⟩⟩⟩
    | invalidate bid c evs =>
      obtain ⟨h1, h2, h3⟩ := h
      subst h1
      exact ⟨h2, .inr ⟨bid, evs, rfl, h3⟩⟩
    | _ => exact absurd h id

/-- A write cancels the older one, not the one to another identifier. -/
example : ∃ s s', Reach any s ∧ s.q = [(0, 0), (1, 1)] ∧ step s (.write 2 7 [0, 1] false false [] false) = .ok s' ∧ s'.q = [(1, 1), (2, 2)] := by
  have h3 : ∃ s s', run (init 0 0) [.alloc, .alloc, .alloc, .write 0 7 [] false false [] false, .write 1 8 [] false false [] false] = some s ∧
      s.q = [(0, 0), (1, 1)] ∧ step s (.write 2 7 [0, 1] false false [] false) = .ok s' ∧ s'.q = [(1, 1), (2, 2)] := ⟨_, _, rfl, rfl, rfl, rfl⟩
  obtain ⟨s, s', h1, h⟩ := h3
  exact ⟨s, s', run_reach (Reach.start 0 0) (fun _ _ => trivial) h1, h⟩

end Foxxll.PoolFail
