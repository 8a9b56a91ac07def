import Verif.Proofs.BlockSchedulerOffline
import Verif.Proofs.BlockSchedulerAux
/-
C51-C54: the block scheduler (/repo/foxxll/mng/block_scheduler.hpp).
-/
namespace Foxxll.Swap

variable {D : Type}

/-! ### Concrete histories, for the examples -/

/-- A history with room for one internal block: block 0 is changed to 5, block 1 takes its place. -/
def exOps : List (Op Nat) :=
  [.alloc, .alloc, .acquire 0 false, .write 0 5, .release 0 true (fun _ => 0), .acquire 1 false, .release 1 true (fun _ => 0)]

/-! ### C51 -/

/-- C51 (partial: `C51_false` shows what goes wrong without the rule about uninitialized blocks).  Whatever the
history, whatever the memory size and whichever blocks were evicted, every call of a client that keeps the
rules has the expected result: `acquire` gives the data of the last dirty release or of the external block,
the default if there is none; or the present contents if the block is already acquired. -/
theorem C51_partial (E : Env D) (hE : ∀ l, E.pick l ∉ l) (dflt : D) (hf : ∀ d, E.fill d = dflt) {s s' : St D} {a : Abs D} (h : Run E s a)
    (op : Op D) (ha : Allowed a op) {r : Res D} (hs : step E s op = some (r, s')) : Expected dflt a op r :=
  (step_inv E hE hf (run_inv E hE hf h) op ha hs).1

/-- Block 0 was evicted, and comes back with its data. -/
example : (play exE (init 1 1 (fun _ => 0) (fun _ => 0)) {} (exOps ++ [.acquire 0 false])).map (fun x => x.2.2) =
    some [.id 0, .id 1, .data 0, .unit, .unit, .data 0, .unit, .data 5] := by rfl

/-- After a dirty release, any calls about other blocks leave the data alone. -/
theorem C51_survives (E : Env D) (hE : ∀ l, E.pick l ∉ l) (dflt : D) (hf : ∀ d, E.fill d = dflt) {s s1 t t' : St D} {a b : Abs D} {r r' : Res D} (h : Run E s a)
    (id : Nat) (d : D) (pr : SB → Nat) (h1 : a.refs id = 1) (hw : a.work id = some d) (hs : step E s (.release id true pr) = some (r, s1))
    (he : Elsewhere E id s1 (a.next (.release id true pr) r) t b) (ht : step E t (.acquire id false) = some (r', t')) : r' = .data d := by
  have hal : Allowed a (.release id true pr) := ⟨by omega, fun _ _ => rfl⟩
  obtain ⟨g1, g2, g3⟩ := elsewhere_run (Run.step _ h hal hs) he
  have hex := C51_partial E hE dflt hf g1 (.acquire id false) trivial ht
  have e1 : (a.next (.release id true pr) r).refs id = 0 := by simp [Abs.next, h1]
  have e2 : (a.next (.release id true pr) r).data id = some d := by simp [Abs.next, hw]
  rw [e1] at g3
  rw [e2] at g2
  simpa [Expected, g2, g3] using hex

example : ∃ s a s1 t b t', Run exE s a ∧ a.refs 0 = 1 ∧ a.work 0 = some 5 ∧ step exE s (.release 0 true (fun _ => 0)) = some (.unit, s1) ∧
    Elsewhere exE 0 s1 (a.next (.release 0 true (fun _ => 0)) .unit) t b ∧ (t.blocks 0).isInternal = false ∧ step exE t (.acquire 0 false) = some (.data 5, t') := by
  refine ⟨_, _, _, _, _, _, play_run (l := exOps.take 4) (Run.start 1 1 (fun _ => 0) (fun _ => 0)) rfl, rfl, rfl, rfl,
    Elsewhere.step (.release 1 true (fun _ => 0)) (Elsewhere.step (.acquire 1 false) Elsewhere.nil (by decide) trivial rfl) (by decide) (by decide) rfl, rfl, rfl⟩

/-- The external blocks the client gets from `extract_external_block` (and its own) hold the data of the
block. -/
theorem C51_external (E : Env D) (hE : ∀ l, E.pick l ∉ l) (dflt : D) (hf : ∀ d, E.fill d = dflt) {s : St D} {a : Abs D} (h : Run E s a) {e : Nat} {d : D}
    (he : a.held e = some d) : s.disk e = d :=
  ((run_inv E hE hf h).held e).2 d he

example : ∃ s a, Run exE s a ∧ a.held 1 = some 5 :=
  ⟨_, _, play_run (l := exOps ++ [.extract 0]) (Run.start 1 1 (fun _ => 0) (fun _ => 0)) rfl, rfl⟩

/-- C51 is false for clients that keep to pairing only: a block with external data 7 is acquired uninitialized
and released not dirty; it stays internal, and the next `acquire` gives whatever was in memory. -/
theorem C51_false : ¬ ∀ (E : Env Nat) (dflt : Nat), (∀ l, E.pick l ∉ l) → (∀ d, E.fill d = dflt) → ∀ (s s' : St Nat) (a : Abs Nat), RunPaired E s a →
    ∀ (op : Op Nat), Paired a op → ∀ (r : Res Nat), step E s op = some (r, s') → Expected dflt a op r := by
  intro h
  have run := RunPaired.step (.release 0 false (fun _ => 0)) (RunPaired.step (.acquire 0 true) (RunPaired.step (.init 0 (some 1)) (RunPaired.step .alloc (RunPaired.step (.client 7)
    (RunPaired.start (E := exE) 1 1 (fun _ => 0) (fun _ => 0)) trivial rfl) trivial rfl) ⟨rfl, rfl, fun x hx => by cases hx; exact fun hc => nomatch hc⟩ rfl) trivial rfl) (by show 0 < 1; omega) rfl
  have := h exE 0 exE_fresh (fun _ => rfl) _ _ _ run (.acquire 0 false) trivial (.data 0) rfl
  exact absurd this (by intro hc; exact nomatch (Res.data.inj hc : (0 : Nat) = 7))

/-! ### C52 -/

/-- C52: internal blocks are free, attached to a block, or not yet allocated; together they are as many as the
constructor computed. -/
theorem C52_account (E : Env D) (hE : ∀ l, E.pick l ∉ l) {max : Nat} {s : St D} (h : Hist E max s) : s.free.length + attachedCount s + s.remaining = max := by
  obtain ⟨h1, _, h3⟩ := hist_inv hE h
  rw [← h3]; exact account h1

/-- C52: no internal block is lost or in two places: the free ones and those of the blocks are exactly the
allocated ones. -/
theorem C52_blocks (E : Env D) (hE : ∀ l, E.pick l ∉ l) {max : Nat} {s : St D} (h : Hist E max s) :
    (s.free ++ (List.range s.n).filterMap fun id => (s.blocks id).int).Perm (List.range s.next) ∧
    (∀ i j p, (s.blocks i).int = some p → (s.blocks j).int = some p → i = j) ∧ ∀ i p, (s.blocks i).int = some p → i < s.n ∧ p ∉ s.free := by
  obtain ⟨h1, _, _⟩ := hist_inv hE h
  exact ⟨attached_perm h1, h1.inj, fun i p hp => ⟨(h1.att i p hp).1, (h1.att i p hp).2.2.1⟩⟩

/-- C52: `acquire` works exactly if the block is internal or fewer blocks are acquired than there is memory
for. -/
theorem C52_acquire (E : Env D) (hE : ∀ l, E.pick l ∉ l) {max : Nat} {s : St D} (h : Hist E max s) (id : Nat) (hid : id < s.n) (uninit : Bool) :
    (acquire E s id uninit).isSome = true ↔ (s.blocks id).isInternal = true ∨ acquiredCount s < max := by
  obtain ⟨h1, h2, h3⟩ := hist_inv hE h
  rw [← h3]; exact acquire_iff hE h1 h2 id uninit hid

/-- The other calls of a client that keeps the rules always work. -/
theorem C52_progress (E : Env D) (hE : ∀ l, E.pick l ∉ l) (dflt : D) (hf : ∀ d, E.fill d = dflt) {s : St D} {a : Abs D} (h : Run E s a) (op : Op D)
    (ha : Allowed a op) (hid : ∀ id, opId op = some id → id < s.n) (h1 : ∀ id u, op ≠ .acquire id u) (h2 : ∀ m l, op ≠ .retag m l) :
    (step E s op).isSome = true := by
  rcases good E hE (run_inv E hE hf h) op ha hid with ⟨id, u, rfl⟩ | ⟨m, l, rfl⟩ | ⟨r, s', g, _⟩
  · exact absurd rfl (h1 id u)
  · exact absurd rfl (h2 m l)
  · rw [g]; rfl

/-- The number of internal blocks: memory is exceeded by less than a block. -/
theorem C52_max (memory size : Nat) (hs : 0 < size) : memory ≤ maxBlocks memory size * size ∧ maxBlocks memory size * size < memory + size := by
  have h1 := Nat.div_add_mod memory size
  have h2 := Nat.mod_lt memory hs
  have h3 : size * (memory / size) = memory / size * size := Nat.mul_comm _ _
  unfold maxBlocks
  split
  · rename_i h; simp only [Nat.add_zero]; omega
  · rename_i h; rw [Nat.add_mul]; omega

/-- With room for 2: blocks 0 and 1 acquired, block 2 cannot be. -/
example : ∃ s : St Nat, Hist exE 2 s ∧ acquiredCount s = 2 ∧ attachedCount s = 2 ∧ s.n = 3 ∧ (acquire exE s 2 false).isSome = false ∧ (acquire exE s 0 false).isSome = true := by
  refine ⟨_, Hist.step (.acquire 1 false) (Hist.step (.acquire 0 false) (Hist.step .alloc (Hist.step .alloc (Hist.step .alloc (Hist.start 4 2 (fun _ => 0) (fun _ => 0) rfl) ?_ rfl) ?_ rfl) ?_ rfl) ?_ rfl) ?_ rfl, rfl, rfl, rfl, rfl, rfl⟩ <;>
    (intro id e hc; cases hc)

/-! ### C53 -/

/-- C53 (partial: `C53_false_invalid`, `C53_false_acquired`).  A simulation started while no block is
acquired, with valid external blocks: after any calls, the simulation says of every block the same as the
execution about its being initialized. -/
theorem C53_partial (E : Env D) (hE : ∀ l, E.pick l ∉ l) (dflt : D) (hf : ∀ d, E.fill d = dflt) {s0 s : St D} {a0 a : Abs D} {m : Sim} {l : List (Op D)}
    (h0 : Run E s0 a0) (hr : ∀ id, a0.refs id = 0) (h : Both E s0 a0 s a m l) (hl : l.length + 1 < 2 ^ 64) (id : Nat) :
    m.isInitialized id = (s.blocks id).isInitialized := by
  have hi := both_inv hE hf (run_inv E hE hf h0) hr h hl
  obtain ⟨k, h1, h2, _⟩ := hi.cnt id
  have h3 := initialized_iff hi.inv id
  rw [Bool.eq_iff_iff, h3]
  simp only [Sim.isInitialized, decide_eq_true_eq, h1, ← h2]
  omega

/-- C53: the operations are recorded in order, with times that do not decrease. -/
theorem C53_recorded (E : Env D) (hE : ∀ l, E.pick l ∉ l) (dflt : D) (hf : ∀ d, E.fill d = dflt) {s0 s : St D} {a0 a : Abs D} {m : Sim} {l : List (Op D)}
    (h0 : Run E s0 a0) (hr : ∀ id, a0.refs id = 0) (h : Both E s0 a0 s a m l) (hl : l.length + 1 < 2 ^ 64) :
    m.seq.map (fun e => (e.op, e.id)) = l.filterMap Op.recorded ∧ m.seq.Pairwise fun x y => x.time ≤ y.time :=
  have hi := both_inv hE hf (run_inv E hE hf h0) hr h hl
  ⟨hi.seq, hi.times⟩

/-- Block 0 is changed, block 1 only looked at. -/
example : ∃ s0 a0 s a m, Run exE s0 a0 ∧ (∀ id, a0.refs id = 0) ∧ Both exE s0 a0 s a m [.acquire 0 false, .acquire 1 false, .release 0 true (fun _ => 0), .release 1 false (fun _ => 0)] ∧
    m.isInitialized 0 = true ∧ m.isInitialized 1 = false ∧ m.seq = [⟨.acquire, 0, 0⟩, ⟨.acquire, 1, 0⟩, ⟨.releaseDirty, 0, 1⟩, ⟨.release, 1, 1⟩] := by
  refine ⟨_, _, _, _, _, play_run (l := [.alloc, .alloc]) (Run.start 2 1 (fun _ => 0) (fun _ => 0)) rfl, fun _ => rfl,
    Both.step (.release 1 false (fun _ => 0)) (Both.step (.release 0 true (fun _ => 0)) (Both.step (.acquire 1 false) (Both.step (.acquire 0 false) Both.start trivial
    (fun _ hc => by cases hc) rfl) trivial (fun _ hc => by cases hc) rfl) (by decide) (fun _ hc => by cases hc) rfl) (by decide) (fun _ hc => by cases hc) rfl, ?_, ?_, rfl⟩ <;> decide

/-- C53 is false with an external block that is not valid, as the simulation itself returns from
`extract_external_block`: the simulation takes the block for initialized. -/
theorem C53_false_invalid : ∃ (s s' : St Nat) (a : Abs Nat), Run exE s a ∧ (∀ id, a.refs id = 0) ∧ Allowed a (.init 0 none) ∧
    step exE s (.init 0 none) = some (.unit, s') ∧ (s'.blocks 0).isInitialized = false ∧ ((Sim.start s).init 0).isInitialized 0 = true :=
  ⟨_, _, _, play_run (l := [.alloc]) (Run.start 1 1 (fun _ => 0) (fun _ => 0)) rfl, fun _ => rfl, ⟨rfl, rfl, fun _ hc => nomatch hc⟩, rfl, rfl, rfl⟩

/-- C53 is false for a simulation started while a block with data is acquired: after the release the
simulation takes it for not initialized. -/
theorem C53_false_acquired : ∃ (s s' : St Nat) (a : Abs Nat), Run exE s a ∧ Allowed a (.release 0 false (fun _ => 0)) ∧
    step exE s (.release 0 false (fun _ => 0)) = some (.unit, s') ∧ (s'.blocks 0).isInitialized = true ∧ ((Sim.start s).release 0 false).isInitialized 0 = false := by
  refine ⟨_, _, _, play_run (l := [.alloc, .client 7, .init 0 (some 1), .acquire 0 false]) (Run.start 1 1 (fun _ => 0) (fun _ => 0)) rfl, by decide, rfl, rfl, ?_⟩
  decide

/-! ### C54 -/

/-- C54 (partial: `C54_false`).  When `acquire` takes the internal block of block `v`, every evictable block
is acquired as its next operation, and not later than `v`, if that is the next operation of `v`; of blocks acquired at
the same time a clean one is taken before a dirty one, and one with an external block before one without. -/
theorem C54_partial (E : Env D) (hE : ∀ l, E.pick l ∉ l) {max : Nat} {f f' : Lfd D} {x : Elem} {rest : List Elem} (h : Exec E max f (x :: rest))
    (hx : x.op = .acquire ∨ x.op = .acquireUninit) (hs : f.exec E none x.op x.id = some f') (ht : ∀ e ∈ x :: rest, e.time < 2 ^ 62 - 1) (v : Nat)
    (hv : (f.st.blocks v).isInternal = true) (hv' : (f'.st.blocks v).isInternal = false) (i : Nat) (hi : (f.st.blocks i).isEvictable = true) (t : Nat)
    (hn : nextAcquire (x :: rest) v = some t) : ∃ t', nextAcquire (x :: rest) i = some t' ∧ t' ≤ t ∧ (t' = t → (f.st.blocks v).dirty = true → (f.st.blocks i).dirty = true) ∧
    (t' = t → (f.st.blocks v).dirty = (f.st.blocks i).dirty → (f.st.blocks v).ext = none → (f.st.blocks i).ext = none) := by
  have inv := exec_inv hE h
  have hq : ∃ q, (q, v) ∈ f.st.evict ∧ ∀ y ∈ f.st.evict, better (q, v) y = true := by
    have key : ∀ u, (Swap.acquire E f.st x.id u).map (fun r => ({ f with st := r.2 } : Lfd D)) = some f' → ∃ q, (q, v) ∈ f.st.evict ∧ ∀ y ∈ f.st.evict, better (q, v) y = true := by
      intro u h1
      simp only [Option.map_eq_some_iff] at h1
      obtain ⟨r, h2, h3⟩ := h1
      cases h3
      exact victim hE inv.core inv.ev inv.mode h2 hv hv'
    rcases hx with hx | hx
    · rw [hx] at hs; exact key false hs
    · rw [hx] at hs; exact key true hs
  obtain ⟨q, q1, q2⟩ := hq
  simp only [SB.isEvictable, SB.isAcquired, SB.isInternal, Bool.and_eq_true, Bool.not_eq_true', decide_eq_false_iff_not] at hi
  have him := (inv.ev.mem i).2 ⟨by intro hc; rw [hc] at hi; simp at hi, by omega⟩
  obtain ⟨y, y1, y2⟩ := List.mem_map.1 him
  have hb := q2 y y1
  have p1 := inv.prio _ q1
  have p2 := inv.prio y y1
  simp only [y2] at p2
  simp only at p1
  rw [(nextAcquire_iff _ _ _).1 hn] at p1
  obtain ⟨e, he, _, het⟩ := nextAcquire_time hn
  have htt := ht e he
  simp only [better, Bool.or_eq_true, Bool.and_eq_true, decide_eq_true_eq] at hb
  have hle : y.1 ≤ q := by omega
  cases hu : (uses (x :: rest)).1 i with
  | mk b t' =>
    rw [hu] at p2
    cases b with
    | false =>
      simp only [prio, if_true, Bool.false_eq_true, if_false] at p1 p2
      rw [Nat.mod_eq_of_lt (by omega)] at p1
      split at p1 <;> split at p1 <;> omega
    | true =>
      have hn' := (nextAcquire_iff _ _ _).2 hu
      obtain ⟨e', he', _, het'⟩ := nextAcquire_time hn'
      have htt' := ht e' he'
      refine ⟨t', hn', ?_, ?_, ?_⟩
      · simp only [prio, if_true] at p1 p2
        rw [Nat.mod_eq_of_lt (by omega)] at p1 p2
        split at p1 <;> split at p1 <;> split at p2 <;> split at p2 <;> omega
      · intro heq hdv
        simp only [prio, if_true, hdv] at p1 p2
        rw [Nat.mod_eq_of_lt (by omega)] at p1 p2
        cases hdi : (f.st.blocks i).dirty with
        | true => rfl
        | false =>
          rw [hdi] at p2
          simp only [Bool.false_eq_true, if_false] at p2
          split at p1 <;> split at p2 <;> omega
      · intro heq hd hev
        simp only [prio, if_true, hd, hev] at p1 p2
        rw [Nat.mod_eq_of_lt (by omega)] at p1 p2
        cases hei : (f.st.blocks i).ext with
        | none => rfl
        | some _ =>
          rw [hei] at p2
          simp only [Option.isSome_none, Option.isSome_some, Bool.false_eq_true, if_false, if_true] at p1 p2
          omega

/-- C54 for sequences of acquire and release only, as the property says it: if there is an evictable block that
is never acquired again, the block evicted is never acquired again. -/
theorem C54_never_partial (E : Env D) (hE : ∀ l, E.pick l ∉ l) {max : Nat} {f f' : Lfd D} {x : Elem} {rest : List Elem} (h : Exec E max f (x :: rest))
    (hx : x.op = .acquire ∨ x.op = .acquireUninit) (hs : f.exec E none x.op x.id = some f') (ht : ∀ e ∈ x :: rest, e.time < 2 ^ 62 - 1)
    (hops : ∀ e ∈ x :: rest, e.op ≠ .deinit ∧ e.op ≠ .init ∧ e.op ≠ .extract) (v : Nat)
    (hv : (f.st.blocks v).isInternal = true) (hv' : (f'.st.blocks v).isInternal = false) (i : Nat) (hi : (f.st.blocks i).isEvictable = true)
    (hnever : ∀ e ∈ x :: rest, e.id = i → e.op ≠ .acquire ∧ e.op ≠ .acquireUninit) : ∀ e ∈ x :: rest, e.id = v → e.op ≠ .acquire ∧ e.op ≠ .acquireUninit := by
  have hnone : nextAcquire (x :: rest) v = none := by
    cases hn : nextAcquire (x :: rest) v with
    | none => rfl
    | some t =>
      exfalso
      obtain ⟨t', h1, _⟩ := C54_partial E hE h hx hs ht v hv hv' i hi t hn
      unfold nextAcquire at h1
      cases ho : nextOp (x :: rest) i with
      | none => rw [ho] at h1; simp at h1
      | some e =>
        have hm := List.mem_of_find?_eq_some ho
        have hp := List.find?_some ho
        simp only [Bool.and_eq_true, beq_iff_eq] at hp
        have := hnever e hm hp.1.1
        rw [ho] at h1
        simp [this.1, this.2] at h1
  intro e he hid
  unfold nextAcquire at hnone
  cases ho : nextOp (x :: rest) v with
  | none =>
    have := (List.find?_eq_none.1 ho) e he
    simp only [hid, beq_self_eq_true, Bool.true_and, Bool.and_eq_true, bne_iff_ne, ne_eq, not_and, Classical.not_not] at this
    constructor <;> intro hc <;> rw [hc] at this <;> simp at this
  | some e' =>
    have hm := List.mem_of_find?_eq_some ho
    have hp := List.find?_some ho
    have := hops e' hm
    rw [ho] at hnone
    simp only [Option.bind_some] at hnone
    split at hnone
    · cases hnone
    · rename_i hno
      cases hop : e'.op <;> simp [hop] at this hp hno

/-- Block 0 is needed sooner than block 1: block 1 is evicted. -/
def exSeq : List Elem := [⟨.acquire, 2, 0⟩, ⟨.releaseDirty, 2, 1⟩, ⟨.acquire, 0, 1⟩, ⟨.release, 0, 2⟩, ⟨.acquire, 1, 2⟩, ⟨.release, 1, 3⟩]

example : ∃ f', Exec exE 2 (Lfd.start exSt exSeq) exSeq ∧ (Lfd.start exSt exSeq).exec exE none .acquire 2 = some f' ∧
    ((Lfd.start exSt exSeq).st.blocks 1).isInternal = true ∧ (f'.st.blocks 1).isInternal = false ∧ ((Lfd.start exSt exSeq).st.blocks 0).isEvictable = true ∧
    nextAcquire exSeq 1 = some 2 ∧ nextAcquire exSeq 0 = some 1 :=
  ⟨_, Exec.start exSeq exSt_hist, rfl, rfl, rfl, rfl, rfl, rfl⟩

/-- Block 0 is not used again: it is evicted. -/
example : ∃ f', (Lfd.start exSt [⟨.acquire, 2, 0⟩, ⟨.releaseDirty, 2, 1⟩, ⟨.acquire, 1, 1⟩]).exec exE none .acquire 2 = some f' ∧ (f'.st.blocks 0).isInternal = false :=
  ⟨_, rfl, rfl⟩

/-- Block 0 is extracted next, then initialized and acquired again; block 1 is not used again. -/
def exSeq' : List Elem := [⟨.acquire, 2, 0⟩, ⟨.releaseDirty, 2, 1⟩, ⟨.extract, 0, 1⟩, ⟨.init, 0, 1⟩, ⟨.acquire, 0, 1⟩, ⟨.release, 0, 2⟩]

/-- C54 is false in general: block 0 is evicted, which is acquired again, though block 1 never is. -/
theorem C54_false : ¬ ∀ (E : Env Nat), (∀ l, E.pick l ∉ l) → ∀ (max : Nat) (f f' : Lfd Nat) (x : Elem) (rest : List Elem), Exec E max f (x :: rest) → x.op = .acquire →
    f.exec E none x.op x.id = some f' → ∀ v, (f.st.blocks v).isInternal = true → (f'.st.blocks v).isInternal = false → ∀ i, (f.st.blocks i).isEvictable = true →
    (∀ e ∈ x :: rest, e.id = i → e.op ≠ .acquire) → ∀ e ∈ x :: rest, e.id = v → e.op ≠ .acquire := by
  intro h
  exact h exE exE_fresh 2 (Lfd.start exSt exSeq') _ ⟨.acquire, 2, 0⟩ exSeq'.tail (Exec.start exSeq' exSt_hist) rfl rfl 0 rfl rfl 1 rfl (by decide) ⟨.acquire, 0, 1⟩ (by decide) rfl rfl

end Foxxll.Swap
