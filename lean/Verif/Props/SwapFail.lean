import Verif.Proofs.SwapFailAux
/-
C133, C134: the block scheduler after calls that failed (/repo/foxxll/mng/block_scheduler.hpp).
-/
namespace Foxxll.SwapFail
open Foxxll.Swap

variable {D : Type}

/-! ### C133 -/

/-- C133 is false for clients that take a call that throws for not made.  Block 0 has the external data 7; the first `acquire` throws because the
read fails, the second returns what the failed read left, without reading again. -/
theorem C133_false_read : ∃ (E : Env Nat) (s s' : FSt Nat) (a : Abs Nat) (r : Res Nat), (∀ l, E.pick l ∉ l) ∧ (∀ d, E.fill d = 0) ∧ Trust E s a ∧
    step E s (.acquire 0 false) = .ok r s' ∧ a.refs 0 = 0 ∧ a.data 0 = some 7 ∧ r = .data 9 ∧ ¬ Swap.Expected 0 a (.acquire 0 false) r := by
  refine ⟨exF 1 (fun _ => true) (fun _ => true), _, _, _, _, exF_fresh _ _ _, fun _ => rfl,
    playT_trust [.op (.client 7), .op .alloc, .op (.init 0 (some 1)), .op (.acquire 0 false)] (Trust.start 1 1 (fun _ => 0) (fun _ => 0)) rfl, rfl, rfl, rfl, rfl, ?_⟩
  intro hc
  exact nomatch (Res.data.inj hc : (9 : Nat) = 7)

/-- Calls on blocks 0 and 1, for the next theorem. -/
def exW : List (Act Nat) :=
  [.op .alloc, .op .alloc, .op (.acquire 0 false), .op (.write 0 5), .op (.release 0 true (fun _ => 0)), .op (.acquire 1 false), .op (.acquire 0 false),
    .op (.release 0 false (fun _ => 0)), .op (.acquire 1 false), .op (.release 1 true (fun _ => 0))]

/-- Block 0 holds 5; acquiring block 1 throws because the write of block 0 fails.  After that block 0 counts as written: it is acquired (with 5 in it)
and released, given up for block 1 without being written, and comes back with 9.  No call on block 0 has thrown. -/
theorem C133_false_write : ∃ (E : Env Nat) (x : FSt Nat × Abs Nat × List (Option (Res Nat))) (s' : FSt Nat) (r : Res Nat),
    (∀ l, E.pick l ∉ l) ∧ (∀ d, E.fill d = 0) ∧ playT E { st := Swap.init 1 1 (fun _ => 0) (fun _ => 0) } {} exW = some x ∧ Trust E x.1 x.2.1 ∧
    x.2.2 = [some (.id 0), some (.id 1), some (.data 0), some .unit, some .unit, none, some (.data 5), some .unit, some (.data 0), some .unit] ∧
    step E x.1 (.acquire 0 false) = .ok r s' ∧ x.2.1.refs 0 = 0 ∧ x.2.1.data 0 = some 5 ∧ r = .data 9 ∧ ¬ Swap.Expected 0 x.2.1 (.acquire 0 false) r := by
  have h : ∃ x, playT (exF 2 (fun _ => true) (fun _ => true)) { st := Swap.init 1 1 (fun _ => 0) (fun _ => 0) } {} exW = some x := ⟨_, rfl⟩
  obtain ⟨x, hx⟩ := h
  have ht := playT_trust exW (Trust.start 1 1 (fun _ => 0) (fun _ => 0)) hx
  refine ⟨exF 2 (fun _ => true) (fun _ => true), x, ?_⟩
  cases hx
  refine ⟨_, _, exF_fresh _ _ _, fun _ => rfl, rfl, ht, rfl, rfl, rfl, rfl, rfl, ?_⟩
  intro hc
  exact nomatch (Res.data.inj hc : (9 : Nat) = 5)

/-- `extract_external_block` throws because the write fails; called again it returns the external block as if it had been written. -/
theorem C133_false_extract : ∃ (E : Env Nat) (s s' : FSt Nat) (a : Abs Nat), (∀ l, E.pick l ∉ l) ∧ (∀ d, E.fill d = 0) ∧ Trust E s a ∧ a.data 0 = some 5 ∧
    step E s (.extract 0) = .ok (.ext (some 1)) s' ∧ (a.next (.extract 0) (.ext (some 1))).held 1 = some 5 ∧ s'.st.disk 1 = 9 := by
  refine ⟨exF 2 (fun _ => true) (fun _ => true), _, _, _, exF_fresh _ _ _, fun _ => rfl,
    playT_trust [.op .alloc, .op (.acquire 0 false), .op (.write 0 5), .op (.release 0 true (fun _ => 0)), .op (.extract 0)] (Trust.start 1 1 (fun _ => 0) (fun _ => 0)) rfl, rfl, rfl, rfl, rfl⟩

/-- `flush` throws because the write of block 1 fails; it does not wait for the write of block 0, which is in flight while its internal block is given to block 2.
The new contents of block 2 end up as those of block 0. -/
theorem C133_false_flush : ∃ (E : Env Nat) (s s' : FSt Nat) (a : Abs Nat) (r : Res Nat), (∀ l, E.pick l ∉ l) ∧ (∀ d, E.fill d = 0) ∧ Trust E s a ∧
    step E s (.acquire 0 false) = .ok r s' ∧ a.refs 0 = 0 ∧ a.data 0 = some 5 ∧ a.work 2 = some 8 ∧ r = .data 8 ∧ ¬ Swap.Expected 0 a (.acquire 0 false) r := by
  refine ⟨exF 3 (fun _ => true) (fun _ => true), _, _, _, _, exF_fresh _ _ _, fun _ => rfl,
    playT_trust [.op .alloc, .op .alloc, .op .alloc, .op (.acquire 0 false), .op (.write 0 5), .op (.release 0 true (fun _ => 0)), .op (.acquire 1 false), .op (.write 1 6),
      .op (.release 1 true (fun _ => 0)), .op .flush, .op (.acquire 1 true), .op (.acquire 2 false), .op (.write 2 8), .late 0, .op (.release 1 true (fun _ => 0))] (Trust.start 2 1 (fun _ => 0) (fun _ => 0)) rfl, rfl, rfl, rfl, rfl, rfl, ?_⟩
  intro hc
  exact nomatch (Res.data.inj hc : (8 : Nat) = 5)

/-- C133 (partial: blocks hit by a failure are excepted until they get new data, see the theorems above).  Whatever requests, allocations of disk space and of memory fail, whatever
the failed requests leave behind and whenever the requests left in flight are served: every call of a client that keeps the rules and does not throw has the
expected result, except that the data of blocks whose request failed or was not waited for are not known, until they are released dirty or get other data. -/
theorem C133_partial (E : Env D) (hE : ∀ l, E.pick l ∉ l) (dflt : D) (hf : ∀ d, E.fill d = dflt) {s s' : FSt D} {a : FAbs D} (h : Run E s a) (op : Op D)
    (ha : Swap.Allowed a.toAbs op) {r : Res D} (hs : step E s op = .ok r s') : Expected dflt a op r := by
  rcases step_out E hE hf (run_finv E hE hf h) op ha (step_lt (by rw [hs]; simp)) with ⟨r, s1, g, g1, _, _⟩ | ⟨hit, s1, g, _, _⟩ | ⟨id, u, _, g⟩ | ⟨m, l, _, g⟩ <;> rw [hs] at g <;> cases g
  exact g1

/-- The history of `C133_false_write`: block 0 is hit; it is released dirty with 6 in it, and has these data in the end, though given up for block 1. -/
example : ∃ s a, Run (exF 2 (fun _ => true) (fun _ => true)) s a ∧ a.lost 0 = false ∧ a.data 0 = some 6 ∧ (s.st.blocks 0).isInternal = false ∧
    ∃ s', step (exF 2 (fun _ => true) (fun _ => true)) s (.acquire 0 false) = .ok (.data 6) s' :=
  ⟨_, _, playF_run [.op .alloc, .op .alloc, .op (.acquire 0 false), .op (.write 0 5), .op (.release 0 true (fun _ => 0)), .op (.acquire 1 false),
      .op (.acquire 0 false), .op (.write 0 6), .op (.release 0 true (fun _ => 0)), .op (.acquire 1 false), .op (.release 1 true (fun _ => 0))]
      (Run.start 1 1 (fun _ => 0) (fun _ => 0)) rfl, rfl, rfl, rfl, _, rfl⟩

/-- The external blocks the client gets from `extract_external_block` hold the data, unless the block was hit. -/
theorem C133_external (E : Env D) (hE : ∀ l, E.pick l ∉ l) (dflt : D) (hf : ∀ d, E.fill d = dflt) {s : FSt D} {a : FAbs D} (h : Run E s a) {e : Nat} {d : D}
    (he : a.held e = some d) (hl : a.lostHeld e = false) : s.st.disk e = d :=
  ((run_finv E hE hf h).held e).2 hl d he

example : ∃ s a, Run (exF 2 (fun _ => true) (fun _ => true)) s a ∧ a.held 1 = some 6 ∧ a.lostHeld 1 = false :=
  ⟨_, _, playF_run [.op .alloc, .op .alloc, .op (.acquire 0 false), .op (.write 0 5), .op (.release 0 true (fun _ => 0)), .op (.acquire 1 false),
      .op (.acquire 0 false), .op (.write 0 6), .op (.release 0 true (fun _ => 0)), .op (.extract 0)] (Run.start 1 1 (fun _ => 0) (fun _ => 0)) rfl, rfl, rfl⟩

/-- A call that throws hits only blocks that are initialized and not dirty afterwards; all others keep what is known of them. -/
theorem C133_hit (E : Env D) (hE : ∀ l, E.pick l ∉ l) (dflt : D) (hf : ∀ d, E.fill d = dflt) {s s' : FSt D} {a : FAbs D} (h : Run E s a) (op : Op D)
    (ha : Swap.Allowed a.toAbs op) {hit : List Nat} (hs : step E s op = .throws hit s') :
    ∀ i ∈ hit, a.data i ≠ none ∧ (s'.st.blocks i).ext ≠ none ∧ (s'.st.blocks i).dirty = false := by
  intro i hi
  have := ((run_finv E hE hf (Run.throws op h ha hs)).ok i).bad (by simp [FAbs.lose, hi])
  exact ⟨this.2.2, this.1, this.2.1⟩

example : ∃ s a s', Run (exF 2 (fun _ => true) (fun _ => true)) s a ∧ step (exF 2 (fun _ => true) (fun _ => true)) s (.acquire 1 false) = .throws [0] s' :=
  ⟨_, _, _, playF_run [.op .alloc, .op .alloc, .op (.acquire 0 false), .op (.write 0 5), .op (.release 0 true (fun _ => 0))] (Run.start 1 1 (fun _ => 0) (fun _ => 0)) rfl, rfl⟩

/-- If no request fails and there is space on the disks, want of memory does no harm: only `acquire` throws, and it may be taken for not made. -/
theorem C133_memory (E : Env D) (hE : ∀ l, E.pick l ∉ l) (dflt : D) (hf : ∀ d, E.fill d = dflt) (hr : ∀ k, E.ans k = .ok) (hsp : ∀ k, E.space k = true)
    {s s' : FSt D} {a : Abs D} (h : Trust E s a) (op : Op D) (ha : Swap.Allowed a op) :
    (∀ r, step E s op = .ok r s' → Swap.Expected dflt a op r) ∧ ∀ hit, step E s op = .throws hit s' → ∃ id u, op = .acquire id u := by
  have key : ∀ {s : FSt D} {a : Abs D}, Trust E s a → Run E s { a with } ∧ Clear s { a with } := by
    intro s a ht
    have : Run E s { a with } := by
      induction ht with
      | start memory size mem disk => exact Run.start memory size mem disk
      | @step s a s' r op _ ha hs ih =>
        have h1 := Run.step op ih ha hs
        have hc := run_clear hE hf ⟨hr, hsp⟩ h1
        have : FAbs.next { a with } op r = ({ a.next op r with } : FAbs D) := by
          have e1 : (FAbs.next { a with } op r).lost = fun _ => false := funext hc.lost
          have e2 : (FAbs.next { a with } op r).lostHeld = fun _ => false := funext hc.held
          have e3 : (FAbs.next { a with } op r).toAbs = a.next op r := by unfold FAbs.next; split <;> rfl
          generalize FAbs.next { a with } op r = b at *
          cases b
          simp only at e1 e2 e3
          rw [e1, e2, e3]
        rw [this] at h1
        exact h1
      | @throws s a s' hit op _ ha hs ih =>
        have h1 := Run.throws op ih ha hs
        rw [(step_nt ⟨hr, hsp⟩ hs).1, lose_nil] at h1
        exact h1
      | late i _ hs ih => exact Run.late i ih hs
    exact ⟨this, run_clear hE hf ⟨hr, hsp⟩ this⟩
  obtain ⟨h1, h2⟩ := key h
  refine ⟨fun r hs => ?_, fun hit hs => (step_nt ⟨hr, hsp⟩ hs).2⟩
  have := C133_partial E hE dflt hf h1 op ha hs
  unfold Expected at this
  split at this
  · rw [if_neg (by simp)] at this; exact this
  · exact this

/-- `acquire` throws because there is no memory. -/
example : ∃ s a s', Trust (exF 100 (fun _ => true) (fun _ => false)) s a ∧ step (exF 100 (fun _ => true) (fun _ => false)) s (.acquire 0 false) = .throws [] s' :=
  ⟨_, _, _, playT_trust [.op .alloc] (Trust.start 1 1 (fun _ => 0) (fun _ => 0)) rfl, rfl⟩

/-! ### C134 -/

/-- C134 is false: with room for one internal block, the eviction of block 0 fails; the internal block stays with block 0, which nobody has acquired and which is
no longer among the evictable blocks.  The next `acquire` of block 1 fails its assertion. -/
theorem C134_false_stuck : ∃ (E : Env Nat) (s : FSt Nat) (a : FAbs Nat), (∀ l, E.pick l ∉ l) ∧ Run E s a ∧ s.st.max = 1 ∧ acquiredCount s.st = 0 ∧ 1 < s.st.n ∧
    (∀ k, E.mem k = true) ∧ step E s (.acquire 1 false) = .ub :=
  ⟨exF 2 (fun _ => true) (fun _ => true), _, _, exF_fresh _ _ _, playF_run [.op .alloc, .op .alloc, .op (.acquire 0 false), .op (.write 0 5), .op (.release 0 true (fun _ => 0)), .op (.acquire 1 false)]
    (Run.start 1 1 (fun _ => 0) (fun _ => 0)) rfl, rfl, rfl, by decide, fun _ => rfl, rfl⟩

/-- The same if there is no space on the disks. -/
theorem C134_false_space : ∃ (E : Env Nat) (s : FSt Nat) (a : FAbs Nat), (∀ l, E.pick l ∉ l) ∧ Run E s a ∧ s.st.max = 1 ∧ acquiredCount s.st = 0 ∧ 1 < s.st.n ∧
    (∀ k, E.ans k = .ok) ∧ (∀ k, E.mem k = true) ∧ step E s (.acquire 1 false) = .ub :=
  ⟨{ exF 100 (fun k => decide (k ≠ 1)) (fun _ => true) with ans := fun _ => .ok }, _, _, exE_fresh, playF_run [.op .alloc, .op .alloc, .op (.acquire 0 false), .op (.write 0 5), .op (.release 0 true (fun _ => 0)), .op (.acquire 1 false)]
    (Run.start 1 1 (fun _ => 0) (fun _ => 0)) rfl, rfl, rfl, by decide, fun _ => rfl, fun _ => rfl, rfl⟩

/-- The allocation of internal blocks fails once; they are lost for ever, and later calls of `acquire` fail their assertion. -/
theorem C134_false_alloc : ∃ (E : Env Nat) (s : FSt Nat) (a : FAbs Nat), (∀ l, E.pick l ∉ l) ∧ Run E s a ∧ s.st.max = 2 ∧ (∀ k, 0 < k → E.mem k = true) ∧
    s.st.free.length + attachedCount s.st + s.st.remaining = 0 ∧ 0 < s.st.n ∧ step E s (.acquire 0 false) = .ub :=
  ⟨exF 100 (fun _ => true) (fun k => decide (0 < k)), _, _, exF_fresh _ _ _, playF_run [.op .alloc, .op (.acquire 0 false)]
    (Run.start 2 1 (fun _ => 0) (fun _ => 0)) rfl, rfl, fun k hk => decide_eq_true hk, rfl, by decide, rfl⟩

/-- After `flush` has thrown, an internal block of a request in flight is free, is then given to another block, and the scheduler could be destroyed. -/
theorem C134_false_flush : ∃ (E : Env Nat) (s s' : FSt Nat) (a : FAbs Nat), (∀ l, E.pick l ∉ l) ∧ Run E s a ∧ (0, 1) ∈ s.pend ∧ 0 ∈ s.st.free ∧ endOk s = false ∧
    (∃ r, step E s (.acquire 2 true) = .ok r s') ∧ (0, 1) ∈ s'.pend ∧ (s'.st.blocks 2).int = some 0 ∧ (s'.st.blocks 0).ext = some 1 := by
  refine ⟨exF 3 (fun _ => true) (fun _ => true), _, _, _, exF_fresh _ _ _,
    playF_run [.op .alloc, .op .alloc, .op .alloc, .op (.acquire 0 false), .op (.write 0 5), .op (.release 0 true (fun _ => 0)), .op (.acquire 1 false), .op (.write 1 6),
      .op (.release 1 true (fun _ => 0)), .op .flush, .op (.acquire 1 true)] (Run.start 2 1 (fun _ => 0) (fun _ => 0)) rfl, by decide, by decide, rfl, ⟨_, rfl⟩, by decide, rfl, rfl⟩

/-- C134 (partial: see the theorems above).  Whatever fails, no internal block is in two places, those allocated are free or attached, and there are never more than the
constructor computed; as many, if no `new` failed. -/
theorem C134_partial (E : Env D) (hE : ∀ l, E.pick l ∉ l) (dflt : D) (hf : ∀ d, E.fill d = dflt) {s : FSt D} {a : FAbs D} (h : Run E s a) :
    (s.st.free ++ (List.range s.st.n).filterMap fun id => (s.st.blocks id).int).Perm (List.range s.st.next) ∧
    s.st.free.length + attachedCount s.st + s.st.remaining ≤ s.st.max ∧
    ((∀ k, E.mem k = true) → s.st.free.length + attachedCount s.st + s.st.remaining = s.st.max) := by
  have hi := run_finv E hE hf h
  have h1 : (fix s.st).free.length + attachedCount (fix s.st) + (fix s.st).remaining = (fix s.st).max := account hi.core
  have h2 : s.st.free.length + attachedCount s.st + s.st.remaining = s.st.next + s.st.remaining := h1
  refine ⟨attached_perm (s := fix s.st) hi.core, ?_, fun hm => ?_⟩
  · rw [h2]; exact hi.le
  · rw [h2]; exact run_tot hm h

/-- Two internal blocks, one of them with a block hit by a failure. -/
example : ∃ s a, Run (exF 2 (fun _ => true) (fun _ => true)) s a ∧ a.lost 0 = true ∧ s.st.max = 2 ∧ s.st.free.length = 0 ∧ attachedCount s.st = 2 ∧ s.st.remaining = 0 ∧ s.st.evict = [(0, 1)] :=
  ⟨_, _, playF_run [.op .alloc, .op .alloc, .op .alloc, .op (.acquire 0 false), .op (.write 0 5), .op (.release 0 true (fun _ => 0)), .op (.acquire 1 false), .op (.write 1 6),
      .op (.release 1 true (fun _ => 0)), .op (.acquire 2 false), .op (.extract 1), .op (.acquire 1 false), .op (.release 1 true (fun _ => 0))] (Run.start 2 1 (fun _ => 0) (fun _ => 0)) rfl, rfl, rfl, rfl, rfl, rfl, rfl⟩

/-- `acquire` fails its assertion exactly if the block is not internal and there is no free internal block, none left to allocate and no evictable one; the other calls
of a client that keeps the rules work or throw. -/
theorem C134_progress (E : Env D) (hE : ∀ l, E.pick l ∉ l) (dflt : D) (hf : ∀ d, E.fill d = dflt) {s : FSt D} {a : FAbs D} (h : Run E s a) (op : Op D)
    (ha : Swap.Allowed a.toAbs op) (hid : ∀ id, Swap.opId op = some id → id < s.st.n) (hr : ∀ m l, op ≠ .retag m l) :
    step E s op = .ub ↔ ∃ id u, op = .acquire id u ∧ (s.st.blocks id).int = none ∧ s.st.free = [] ∧ s.st.remaining = 0 ∧ s.st.evict = [] := by
  constructor
  · intro hs
    rcases step_out E hE hf (run_finv E hE hf h) op ha hid with ⟨r, s1, g, _, _, _⟩ | ⟨hit, s1, g, _, _⟩ | ⟨id, u, ho, _, h0, h1, h2, h3⟩ | ⟨m, l, ho, _⟩
    · rw [hs] at g; cases g
    · rw [hs] at g; cases g
    · exact ⟨id, u, ho, h0, h1, h2, h3⟩
    · exact absurd ho (hr m l)
  · rintro ⟨id, u, rfl, h0, h1, h2, h3⟩
    have hg : getFree E s = .ub := by
      simp only [getFree, getFreeBs, h1, h2, Nat.lt_irrefl, if_false, R.bind, h3, popEvict]
    simp only [step, acquire, Nat.not_le.2 (hid id rfl), h0, hg, R.bind, R.map, ite_self]

/-- Internal blocks stuck with a block are given back when it is deinitialized. -/
theorem C134_recover (E : Env D) (hE : ∀ l, E.pick l ∉ l) (dflt : D) (hf : ∀ d, E.fill d = dflt) {s : FSt D} {a : FAbs D} (h : Run E s a) (id : Nat)
    (hid : id < s.st.n) (ha : a.refs id = 0) : ∃ s', step E s (.deinit id) = .ok .unit s' ∧ (s'.st.blocks id).isInternal = false ∧ (s'.st.blocks id).isExternal = false ∧
      s'.st.free = (s.st.blocks id).int.toList ++ s.st.free := by
  have hi := run_finv E hE hf h
  obtain ⟨t, g, _, g2⟩ := deinit_spec hi id hid ha
  refine ⟨{ s with st := t }, by simp only [step, lift, g, R.map, R.bind], by rw [g2]; rfl, by rw [g2]; rfl, ?_⟩
  unfold Swap.deinit at g
  rw [if_neg (Nat.not_le.2 hid)] at g
  simp only at g
  split at g
  · cases g
  · split at g
    · rename_i p hp
      cases g
      rw [hp]
      show p :: _ = [p] ++ _
      split <;> rfl
    · rename_i hp
      cases g
      rw [hp]
      show _ = _
      split <;> rfl

/-- In the state of `C134_false_stuck`. -/
example : ∃ s a s', Run (exF 2 (fun _ => true) (fun _ => true)) s a ∧ step (exF 2 (fun _ => true) (fun _ => true)) s (.acquire 1 false) = .ub ∧
    step (exF 2 (fun _ => true) (fun _ => true)) s (.deinit 0) = .ok .unit s' ∧ ∃ r s'', step (exF 2 (fun _ => true) (fun _ => true)) s' (.acquire 1 false) = .ok r s'' :=
  ⟨_, _, _, playF_run [.op .alloc, .op .alloc, .op (.acquire 0 false), .op (.write 0 5), .op (.release 0 true (fun _ => 0)), .op (.acquire 1 false)]
    (Run.start 1 1 (fun _ => 0) (fun _ => 0)) rfl, rfl, rfl, _, _, rfl⟩

/-- Only a `flush` that throws leaves requests in flight: as long as none has thrown, there are none. -/
theorem C134_flight (E : Env D) (hE : ∀ l, E.pick l ∉ l) (dflt : D) (hf : ∀ d, E.fill d = dflt) {s s' : FSt D} {a : FAbs D} (h : Run E s a) (op : Op D)
    (ha : Swap.Allowed a.toAbs op) : (∀ r, step E s op = .ok r s' → ∀ x ∈ s'.pend, x ∈ s.pend) ∧
      ∀ hit, step E s op = .throws hit s' → op ≠ .flush → ∀ x ∈ s'.pend, x ∈ s.pend := by
  constructor
  · intro r hs
    rcases step_out E hE hf (run_finv E hE hf h) op ha (step_lt (by rw [hs]; simp)) with ⟨r, s1, g, _, _, g1⟩ | ⟨hit, s1, g, _, _⟩ | ⟨id, u, _, g⟩ | ⟨m, l, _, g⟩ <;> rw [hs] at g <;> cases g
    exact g1
  · intro hit hs hn
    rcases step_out E hE hf (run_finv E hE hf h) op ha (step_lt (by rw [hs]; simp)) with ⟨r, s1, g, _, _, g1⟩ | ⟨hit, s1, g, _, g1⟩ | ⟨id, u, _, g⟩ | ⟨m, l, _, g⟩ <;> rw [hs] at g <;> cases g
    rcases g1 with g1 | g1
    · exact absurd g1 hn
    · exact g1

/-- `flush` throws and leaves a request. -/
example : ∃ s a s', Run (exF 3 (fun _ => true) (fun _ => true)) s a ∧ s.pend = [] ∧ step (exF 3 (fun _ => true) (fun _ => true)) s .flush = .throws [1, 0] s' ∧ s'.pend = [(0, 1)] :=
  ⟨_, _, _, playF_run [.op .alloc, .op .alloc, .op (.acquire 0 false), .op (.write 0 5), .op (.release 0 true (fun _ => 0)), .op (.acquire 1 false), .op (.write 1 6),
      .op (.release 1 true (fun _ => 0))] (Run.start 2 1 (fun _ => 0) (fun _ => 0)) rfl, rfl, rfl, rfl⟩

/-- **C134, other part**: a request in flight can be served if and only if no request submitted before it writes the same external block; this
changes this block only, to what is in the internal block if the service succeeds, and the request is in flight no more. -/
theorem C134_served (E : Env D) (s : FSt D) {pre post : List (Nat × Nat)} {p e : Nat} (h : s.pend = pre ++ (p, e) :: post) :
    ((∃ q, (q, e) ∈ pre) → lateAt E s pre.length = none) ∧
    ((∀ q, (q, e) ∉ pre) → ∃ s', lateAt E s pre.length = some s' ∧ s'.pend = pre ++ post ∧ s'.k = s.k + 1 ∧ s'.st.mem = s.st.mem ∧
      (∀ e', e' ≠ e → s'.st.disk e' = s.st.disk e') ∧ (E.ans s.k = .ok → s'.st.disk e = s.st.mem p)) := by
  obtain ⟨h1, h2, h3⟩ := pend_at pre post (p, e)
  unfold lateAt
  rw [h, h1, h2, h3]
  dsimp only
  constructor
  · rintro ⟨q, hq⟩
    rw [if_neg]
    intro c
    have := List.all_eq_true.1 c _ hq
    simp at this
  · intro hn
    rw [if_pos (List.all_eq_true.2 (fun y hy => by
      have : y.2 ≠ e := by
        intro c
        apply hn y.1
        rw [← c]
        exact hy
      simpa using this))]
    refine ⟨_, rfl, ?_⟩
    unfold late
    split
    · rename_i hk
      exact ⟨rfl, rfl, rfl, fun e' he => if_neg he, fun _ => if_pos rfl⟩
    · rename_i d hk
      refine ⟨rfl, rfl, rfl, fun e' he => if_neg he, ?_⟩
      intro c
      have hk : E.ans s.k = _ := hk
      rw [c] at hk
      cases hk

/-- The request left by the failed `flush` above is served. -/
example : ∃ s : FSt Nat, s.pend = [] ++ (0, 1) :: [] ∧ ∃ s', lateAt (exF 3 (fun _ => true) (fun _ => true)) s 0 = some s' ∧ s'.pend = [] :=
  ⟨{ st := Swap.init 2 1 (fun _ => 0) (fun _ => 0), pend := [(0, 1)] }, rfl, _, rfl, rfl⟩

end Foxxll.SwapFail
