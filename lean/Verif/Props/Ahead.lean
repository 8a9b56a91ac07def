import Verif.Proofs.AheadKnown
import Verif.Props.BlockSchedulerPolicy
import Verif.Proofs.AheadAux
/-
C91-C97: offline_lru_prefetching (/repo/foxxll/mng/block_scheduler.hpp).
-/
namespace Foxxll.Ahead
open Foxxll.Swap (SB Env POp Elem Op Res Abs Allowed Expected exE exE_fresh)

variable {D : Type}

/-! ### Concrete histories, for the examples -/

def seqOf (l : List (POp × Nat)) : List Elem := l.map fun x => ⟨x.1, x.2, 0⟩
def acq (c : Nat) : Act Nat := .call (.acquire c false)
def rel (c : Nat) (dirty : Bool) : Act Nat := .call (.release c dirty (fun _ => 0))
def wri (c d : Nat) : Act Nat := .call (.write c d)

/-- Room for one internal block: block 0 is changed to 5; its internal block is written and given to block 1, whose
data 7 is read ahead. -/
def exActs : List (Act Nat) :=
  [.call .alloc, .call .alloc, .call (.client 7), .call (.init 1 (some 1)),
    .start (seqOf [(.acquire, 0), (.releaseDirty, 0), (.acquire, 1), (.release, 1), (.acquire, 0), (.release, 0)]) [],
    acq 0, wri 0 5, rel 0 true]

/-! ### C91 -/

/-- C91 (partial: sequences that are `Plain`; `C91_false`).  Whatever the progress of the I/O threads, every call that does
not fail gives the client what it may expect: `acquire` gives the data last released, `extract_external_block` a block
that holds them. -/
theorem C91_partial (E : Env D) (hE : ∀ l, E.pick l ∉ l) (dflt : D) (hf : ∀ d, E.fill d = dflt) {f : Bool} {s s' : St D} {a : Abs D} (h : Life E Plain (.ahead f s) a)
    (op : Op D) (ha : Allowed a op) {r : Res D} (hs : step E s op = some (r, s')) : Expected dflt a op r :=
  letI := Slack.no D
  (step_linv E hE hf (life_plain E hE hf h) op ha hs).1

/-- The same after the switch back to another algorithm. -/
theorem C91_online_partial (E : Env D) (hE : ∀ l, E.pick l ∉ l) (dflt : D) (hf : ∀ d, E.fill d = dflt) {b b' : Swap.St D} {a : Abs D} (h : Life E Plain (.online b) a)
    (op : Op D) (ha : Allowed a op) {r : Res D} (hs : Swap.step E b op = some (r, b')) : Expected dflt a op r :=
  letI := Slack.no D
  (Swap.step_inv E hE hf (life_plain E hE hf h) op ha hs).1

/-- The external blocks of the client are left alone. -/
theorem C91_external_partial (E : Env D) (hE : ∀ l, E.pick l ∉ l) (dflt : D) (hf : ∀ d, E.fill d = dflt) {f : Bool} {s : St D} {a : Abs D} (h : Life E Plain (.ahead f s) a)
    {e : Nat} {d : D} (he : a.held e = some d) : s.b.disk e = d := by
  letI := Slack.no D
  obtain ⟨S, v, k, _⟩ := life_plain E hE hf h
  exact held_disk k he

/-- Block 1 comes with 7, then block 0 comes back with 5; also if the algorithm is changed in between. -/
example : ∃ f s a, Life exE Plain (.ahead f s) a ∧ Allowed a (.acquire 1 false) ∧ (step exE s (.acquire 1 false)).map (·.1) = some (.data 7) :=
  okA_life plainB_plain (m := 1) exActs (by decide +kernel)
example : ∃ f s a, Life exE Plain (.ahead f s) a ∧ Allowed a (.acquire 0 false) ∧ (s.b.blocks 0).ext = some 2 ∧ (step exE s (.acquire 0 false)).map (·.1) = some (.data 5) :=
  okA_life plainB_plain (m := 1) (exActs ++ [acq 1, rel 1 false]) (by decide +kernel)
example : ∃ b a, Life exE Plain (.online b) a ∧ Allowed a (.acquire 0 false) ∧ (Swap.step exE b (.acquire 0 false)).map (·.1) = some (.data 5) :=
  okB_life plainB_plain (m := 1) (exActs ++ [acq 1, rel 1 false, .stop]) (by decide +kernel)
example : ∃ f s a, Life exE Plain (.ahead f s) a ∧ a.held 3 = some 9 :=
  okA_life plainB_plain (m := 1) (exActs ++ [.call (.client 9)]) (by decide +kernel)

/-- Room for one: block 0 is changed to 5 and evicted for block 1; then its external block is extracted and used to
initialize block 2. -/
def outActs : List (Act Nat) :=
  [.call .alloc, .call .alloc, .call .alloc, .call (.client 7), .call (.init 1 (some 1)),
    .start (seqOf [(.acquire, 0), (.releaseDirty, 0), (.acquire, 1), (.extract, 0), (.release, 1), (.init, 2), (.acquire, 2), (.release, 2)]) [],
    acq 0, wri 0 5, rel 0 true, acq 1]
example : ∃ f s a, Life exE Plain (.ahead f s) a ∧ Allowed a (.extract 0) ∧ a.data 0 = some 5 ∧ (step exE s (.extract 0)).map (·.1) = some (.ext (some 2)) :=
  okA_life plainB_plain (m := 1) outActs (by decide +kernel)
example : ∃ f s a, Life exE Plain (.ahead f s) a ∧ a.held 2 = some 5 ∧ s.b.disk 2 = 5 :=
  okA_life plainB_plain (m := 1) (outActs ++ [.call (.extract 0)]) (by decide +kernel)
example : ∃ f s a, Life exE Plain (.ahead f s) a ∧ Allowed a (.acquire 2 false) ∧ (step exE s (.acquire 2 false)).map (·.1) = some (.data 5) :=
  okA_life plainB_plain (m := 1) (outActs ++ [.call (.extract 0), rel 1 false, .call (.init 2 (some 2))]) (by decide +kernel)

/-- Block 0 with contents 5 is released dirty; its write (because of the `extract` to come) is under way when
its internal block is given to block 1, which is read with 7 before the write is done. -/
def badActs : List (Act Nat) :=
  [.call .alloc, .call .alloc, .call (.client 7),
    .start (seqOf [(.init, 1), (.acquire, 0), (.releaseDirty, 0), (.acquire, 0), (.release, 0), (.extract, 0), (.init, 0), (.acquire, 1), (.release, 1), (.acquire, 0)])
      (List.replicate 12 [.read 0]),
    .call (.init 1 (some 1)), acq 0, wri 0 5, rel 0 true, acq 0, rel 0 false]

/-- C91 is false: the external block that `extract_external_block` gives holds 7 instead of 5, and so does the
block initialized with it. -/
theorem C91_false : ¬ ∀ (E : Env Nat) (dflt : Nat), (∀ l, E.pick l ∉ l) → (∀ d, E.fill d = dflt) → ∀ (f : Bool) (s s' : St Nat) (a : Abs Nat),
    Life E Known (.ahead f s) a → ∀ (op : Op Nat), Allowed a op → ∀ (r : Res Nat), step E s op = some (r, s') → Expected dflt a op r := by
  intro h
  obtain ⟨f, s, a, h1, h2, h3, h4⟩ := okA_life (P := fun _ s a => (step exE s (.acquire 0 false)).map (·.1) = some (.data 7) ∧ a.refs 0 = 0 ∧ a.data 0 = some 5) knownB_known (m := 1)
    (badActs ++ [.call (.extract 0), .call (.init 0 (some 2)), acq 1, rel 1 false]) (by decide +kernel)
  obtain ⟨r, k1, k2⟩ := Option.map_eq_some_iff.1 h2
  have := h exE 0 exE_fresh (fun _ => rfl) f s r.2 a h1 (.acquire 0 false) trivial r.1 k1
  rw [k2] at this
  simp [Expected, h3, h4] at this

/-! ### C92 -/

/-- C92.  Prefetching can always be started. -/
theorem C92_start (E : Env D) (hE : ∀ l, E.pick l ∉ l) {b : Swap.St D} {a : Abs D} (h : Life E Known (.online b) a)
    (seq : List Elem) (orc : List (List Disk)) (hq : Known b.n seq) : (start E b seq orc).isSome = true :=
  start_known E hE h seq orc hq

/-- C92 (partial: before `flush`; `C92_false_extract`).  The next call of the sequence, executed by a client that keeps the
rules, works; `acquire` exactly if the block is in memory or fewer blocks are acquired than there is memory for, as with the
other algorithms; `extract_external_block` exactly if the block is not in memory, unlike with the other algorithms. -/
theorem C92_partial (E : Env D) (hE : ∀ l, E.pick l ∉ l) {s : St D} {a : Abs D} (h : Life E Known (.ahead false s) a)
    {op : Op D} (hp : Predicted s op) (ha : Allowed a op) :
    (step E s op).isSome = true ↔
      (∀ id u, op = .acquire id u → (s.b.blocks id).isInternal = true ∨ Swap.acquiredCount s.b < s.b.max) ∧
      ∀ id, op = .extract id → (s.b.blocks id).isInternal = false :=
  predicted_known E hE h hp ha

/-- C92.  Writing to an acquired block, `flush`, and the switch to another algorithm always work. -/
theorem C92_other (E : Env D) (hE : ∀ l, E.pick l ∉ l) {f : Bool} {s : St D} {a : Abs D} (h : Life E Known (.ahead f s) a) :
    (∀ c d, Allowed a (.write c d) → (step E s (.write c d)).isSome = true) ∧ (step E s .flush).isSome = true ∧ (toOnline s).isSome = true :=
  other_known E hE h

/-- C92.  There is nothing but the sequence: a recorded call that is not the next of it fails an assertion. -/
theorem C92_only (E : Env D) {s : St D} {op : Op D} {o : POp} {c : Nat} (ho : op.recorded = some (o, c)) (hp : ¬ Predicted s op) : step E s op = none := by
  cases hs : step E s op with
  | none => rfl
  | some r =>
    exfalso
    letI := Slack.no D
    obtain ⟨s0, hb⟩ := step_begin E ho (r := r.1) (s' := r.2) hs
    unfold begin_ at hb
    split at hb
    · cases hb
    · rename_i x l hx
      split at hb
      · rename_i hc
        exact hp ⟨x, l, hx, by rw [ho, hc.1, hc.2.1]⟩
      · cases hb

/-- A sequence that is not `Plain`: block 0 is extracted while its memory is read into for block 1. -/
example : ∃ f s a, Life exE Known (.ahead f s) a ∧ f = false ∧ Predicted s (.extract 0) ∧ Allowed a (.extract 0) ∧ (s.b.blocks 0).isInternal = false ∧ (step exE s (.extract 0)).isSome = true ∧
    plainB 2 (seqOf [(.init, 1), (.acquire, 0), (.releaseDirty, 0), (.acquire, 0), (.release, 0), (.extract, 0), (.init, 0), (.acquire, 1), (.release, 1), (.acquire, 0)]) = false :=
  okA_life knownB_known (m := 1) badActs (by decide +kernel)
/-- Room for two: the third block cannot be acquired while two are, though the sequence says so. -/
example : ∃ b a, Life exE Plain (.online b) a ∧ plainB b.n (seqOf [(.acquire, 0), (.acquire, 1), (.acquire, 2)]) = true :=
  okB_life plainB_plain (m := 2) [.call .alloc, .call .alloc, .call .alloc] (by decide +kernel)
def threeActs : List (Act Nat) := [.call .alloc, .call .alloc, .call .alloc, .start (seqOf [(.acquire, 0), (.acquire, 1), (.acquire, 2)]) []]
example : ∃ f s a, Life exE Plain (.ahead f s) a ∧ f = false ∧ Predicted s (.acquire 1 false) ∧ Allowed a (.acquire 1 false) ∧ (step exE s (.acquire 1 false)).isSome = true ∧
    Swap.acquiredCount s.b = 1 :=
  okA_life plainB_plain (m := 2) (threeActs ++ [acq 0]) (by decide +kernel)
example : ∃ f s a, Life exE Plain (.ahead f s) a ∧ f = false ∧ Predicted s (.acquire 2 false) ∧ Allowed a (.acquire 2 false) ∧ (step exE s (.acquire 2 false)).isSome = false ∧
    Swap.acquiredCount s.b = 2 :=
  okA_life plainB_plain (m := 2) (threeActs ++ [acq 0, acq 1]) (by decide +kernel)
example : ∃ f s a, Life exE Plain (.ahead f s) a ∧ f = false ∧ Predicted s (.extract 0) ∧ Allowed a (.extract 0) ∧ (s.b.blocks 0).isInternal = false :=
  okA_life plainB_plain (m := 1) outActs (by decide +kernel)
example : ∃ f s a, Life exE Plain (.ahead f s) a ∧ f = false ∧ Predicted s (.extract 0) ∧ Allowed a (.extract 0) ∧ (s.b.blocks 0).isInternal = true :=
  okA_life plainB_plain (m := 1) [.call .alloc, .start (seqOf [(.acquire, 0), (.releaseDirty, 0), (.extract, 0)]) [], acq 0, wri 0 5, rel 0 true] (by decide +kernel)
example : ∃ f s a, Life exE Plain (.ahead f s) a ∧ Allowed a (.write 0 5) ∧ ¬ Predicted s (.deinit 0) :=
  okA_life plainB_plain (m := 1) (exActs.take 6) (by decide +kernel)

/-- C92 is false: acquire, release dirty and extract of one block, as recorded, fail the assertion that the block is not
internal. -/
theorem C92_false_extract : ¬ ∀ (E : Env Nat) (dflt : Nat), (∀ l, E.pick l ∉ l) → (∀ d, E.fill d = dflt) → ∀ (s : St Nat) (a : Abs Nat),
    Life E Plain (.ahead false s) a → ∀ (op : Op Nat), Predicted s op → Allowed a op → (∀ id u, op ≠ .acquire id u) → (step E s op).isSome = true := by
  intro h
  obtain ⟨f, s, a, h1, h2, h3, h4, h5⟩ := okA_life (P := fun f s a => f = false ∧ Predicted s (.extract 0) ∧ Allowed a (.extract 0) ∧ (step exE s (.extract 0)).isSome = false) plainB_plain (m := 1)
    [.call .alloc, .start (seqOf [(.acquire, 0), (.releaseDirty, 0), (.extract, 0)]) [], acq 0, wri 0 5, rel 0 true] (by decide +kernel)
  subst h2
  have := h exE 0 exE_fresh (fun _ => rfl) s a h1 (.extract 0) h3 h4 (fun _ _ hc => by cases hc)
  rw [h5] at this; cases this

/-- C92 is false after `flush`, which gives up the schedule: the next call of the sequence fails. -/
theorem C92_false_flush : ¬ ∀ (E : Env Nat) (dflt : Nat), (∀ l, E.pick l ∉ l) → (∀ d, E.fill d = dflt) → ∀ (f : Bool) (s : St Nat) (a : Abs Nat),
    Life E Plain (.ahead f s) a → ∀ (id : Nat), Predicted s (.acquire id false) → Swap.acquiredCount s.b < s.b.max → (step E s (.acquire id false)).isSome = true := by
  intro h
  obtain ⟨f, s, a, h1, h2, h3, h4⟩ := okA_life (P := fun _ s _ => Predicted s (.acquire 0 false) ∧ Swap.acquiredCount s.b < s.b.max ∧ (step exE s (.acquire 0 false)).isSome = false) plainB_plain (m := 1)
    [.call .alloc, .start (seqOf [(.acquire, 0), (.releaseDirty, 0), (.acquire, 0)]) [], acq 0, wri 0 5, rel 0 true, .call .flush] (by decide +kernel)
  have := h exE 0 exE_fresh (fun _ => rfl) f s a h1 0 h2 h3
  rw [h4] at this; cases this

/-- C92 is false for `allocate_swappable_block`, which may be called at any time: a completion handler still has an iterator
into the vector that grows. -/
theorem C92_false_alloc : ¬ ∀ (E : Env Nat) (dflt : Nat), (∀ l, E.pick l ∉ l) → (∀ d, E.fill d = dflt) → ∀ (s : St Nat) (a : Abs Nat),
    Life E Plain (.ahead false s) a → (step E s .alloc).isSome = true := by
  intro h
  obtain ⟨f, s, a, h1, h2, h3⟩ := okA_life (P := fun f s _ => f = false ∧ (step exE s .alloc).isSome = false) plainB_plain (m := 1) exActs (by decide +kernel)
  subst h2
  have := h exE 0 exE_fresh (fun _ => rfl) s a h1
  rw [h3] at this; cases this

/-- C92 (partial: `C92_false_alloc`).  `allocate_swappable_block` is possible if an identifier can be reused or no completion
handler has a read to start. -/
theorem C92_alloc_partial (E : Env D) (hE : ∀ l, E.pick l ∉ l) {f : Bool} {s : St D} {a : Abs D} (h : Life E Known (.ahead f s) a)
    (hc : s.b.freeIds ≠ [] ∨ ∀ g w, s.wsched g = some w → w.shallRead = true → w.phase = .handled) : (step E s .alloc).isSome = true :=
  alloc_known E hE h hc

/-- A write without a read after it is under way. -/
example : ∃ f s a, Life exE Plain (.ahead f s) a ∧ (s.wsched 0).map (fun w => (w.phase, w.shallRead)) = some (.pending, false) ∧ s.b.freeIds = [] :=
  okA_life plainB_plain (m := 1) [.call .alloc, .call .alloc, .start (seqOf [(.acquire, 0), (.releaseDirty, 0), (.acquire, 1)]) [], acq 0, wri 0 5, rel 0 true] (by decide +kernel)

/-! ### C93 -/

/-- C93 (partial: `C93_false`).  No transfer uses the memory of an acquired block. -/
theorem C93_acquired_partial (E : Env D) (hE : ∀ l, E.pick l ∉ l) (dflt : D) (hf : ∀ d, E.fill d = dflt) {f : Bool} {s : St D} {a : Abs D} (h : Life E Plain (.ahead f s) a)
    {c : Nat} (hc : 0 < a.refs c) : ∃ p, (s.b.blocks c).int = some p ∧ (∀ x ∈ s.reads, x.buf ≠ p) ∧ ∀ g w, s.wsched g = some w → w.buf ≠ p := by
  letI := Slack.no D
  obtain ⟨S, v, k, _⟩ := life_plain E hE hf h
  exact acquired_quiet id k hc

/-- C93 (partial).  No transfer uses a free internal block. -/
theorem C93_free_partial (E : Env D) (hE : ∀ l, E.pick l ∉ l) (dflt : D) (hf : ∀ d, E.fill d = dflt) {f : Bool} {s : St D} {a : Abs D} (h : Life E Plain (.ahead f s) a)
    {p : Nat} (hp : p ∈ s.b.free) : (∀ x ∈ s.reads, x.buf ≠ p) ∧ ∀ g w, s.wsched g = some w → w.buf ≠ p := by
  letI := Slack.no D
  obtain ⟨S, v, k, _⟩ := life_plain E hE hf h
  exact free_quiet id k hp

/-- C93 (partial).  Transfers under way at the same time use different internal and different external blocks. -/
theorem C93_apart_partial (E : Env D) (hE : ∀ l, E.pick l ∉ l) (dflt : D) (hf : ∀ d, E.fill d = dflt) {f : Bool} {s : St D} {a : Abs D} (h : Life E Plain (.ahead f s) a) :
    (∀ x ∈ s.reads, ∀ y ∈ s.reads, x.buf = y.buf ∨ x.ext = y.ext → x = y) ∧
    (∀ x ∈ s.reads, ∀ g w, s.wsched g = some w → w.phase = .pending → x.buf ≠ w.buf ∧ x.ext ≠ w.ext) ∧
    (∀ g w d u, s.wsched g = some w → s.wsched d = some u → w.buf = u.buf ∨ w.ext = u.ext → g = d) := by
  letI := Slack.no D
  obtain ⟨S, v, k, _⟩ := life_plain E hE hf h
  exact ⟨fun x hx y hy e => reads_apart k hx hy e, fun x hx g w hw hp => ⟨(read_write_apart id k hx hw).1 hp, (read_write_apart id k hx hw).2⟩,
    fun g w d u hw hu e => writes_apart id k hw hu e⟩

/-- The write of block 0 is under way, the read of block 1 as well, and block 3 is acquired. -/
example : ∃ f s a, Life exE Plain (.ahead f s) a ∧ 0 < a.refs 3 ∧ s.reads.length = 1 ∧ (s.wsched 0).map (·.phase) = some .pending :=
  okA_life plainB_plain (m := 3) [.call .alloc, .call .alloc, .call .alloc, .call .alloc, .call (.client 7), .call (.client 8), .call (.init 1 (some 1)), .call (.init 2 (some 2)),
    .start (seqOf [(.acquire, 3), (.acquire, 0), (.releaseDirty, 0), (.acquire, 1), (.acquire, 2)]) [], acq 3, acq 0, wri 0 5, rel 0 true] (by decide +kernel)
example : ∃ f s a, Life exE Plain (.ahead f s) a ∧ 0 ∈ s.b.free :=
  okA_life plainB_plain (m := 2) [.call .alloc, acq 0, rel 0 false, .start (seqOf []) []] (by decide +kernel)

/-- C93 is false: the read of block 1 is under way into the memory from which block 0 is being written. -/
theorem C93_false : ¬ ∀ (E : Env Nat) (dflt : Nat), (∀ l, E.pick l ∉ l) → (∀ d, E.fill d = dflt) → ∀ (f : Bool) (s : St Nat) (a : Abs Nat),
    Life E Known (.ahead f s) a → ∀ x ∈ s.reads, ∀ g w, s.wsched g = some w → w.phase = .pending → x.buf ≠ w.buf := by
  intro h
  obtain ⟨f, s, a, h1, h2, h3, h4⟩ := okA_life (P := fun _ s _ => s.reads.head?.map (·.buf) = some 0 ∧ (s.wsched 0).map (·.phase) = some .pending ∧ (s.wsched 0).map (·.buf) = some 0) knownB_known (m := 1)
    badActs (by decide +kernel)
  obtain ⟨x, x1, x2⟩ := Option.map_eq_some_iff.1 h2
  obtain ⟨w, w1, w2⟩ := Option.map_eq_some_iff.1 h3
  rw [w1] at h4
  exact h exE 0 exE_fresh (fun _ => rfl) f s a h1 x (List.mem_of_head? x1) 0 w w1 w2 (by rw [x2]; exact (Option.some.inj h4).symm)

/-! ### C94 -/

/-- C94.  Every block with data whose next scheduled operation is `acquire` has an internal block (with its data there or on
the way, see C91), and is not among those that may be evicted. -/
theorem C94 (E : Env D) (hE : ∀ l, E.pick l ∉ l) {f : Bool} {s : St D} {a : Abs D} (h : Life E Known (.ahead f s) a)
    {c : Nat} (hd : a.data c ≠ none) (hs : (scheduled s c).head? = some .acquire) : (s.b.blocks c).isInternal = true ∧ c ∉ s.freeEv :=
  attached_known E hE h hd hs

/-- C94.  Every block that is to be acquired by a scheduled operation has an internal block attached or reserved. -/
theorem C94_reserved (E : Env D) (hE : ∀ l, E.pick l ∉ l) {f : Bool} {s : St D} {a : Abs D} (h : Life E Known (.ahead f s) a)
    {c : Nat} (hs : .acquire ∈ scheduled s c ∨ .acquireUninit ∈ scheduled s c) : (s.b.blocks c).isInternal = true ∨ ∃ m p, s.sched c = some m ∧ m.reserved = some p :=
  reserved_known E hE h hs

/-- C94.  `acquire` starts no transfer: there is no new write request; nor a read request, unless a completion handler that
had a read to start has done so meanwhile. -/
theorem C94_acquire (E : Env D) {s s' : St D} {c : Nat} {u : Bool} {r : Res D} (h : step E s (.acquire c u) = some (r, s')) :
    (∀ g, s.wsched g = none → s'.wsched g = none) ∧
    ((∀ g w, s.wsched g = some w → w.shallRead = true → w.phase = .handled) → s'.reqs = s.reqs ∧ ∀ x ∈ s'.reads, x ∈ s.reads) := by
  obtain ⟨q, h1, h2⟩ := Option.map_eq_some_iff.1 h
  cases h2
  have k := acquire_fewer E (p := q.1) (s' := q.2) h1
  exact ⟨k.wr, fun hc => (k.calm hc).2⟩

/-- Block 1 is read ahead while block 0 is acquired; after its release block 0 is in memory to be used again. -/
example : ∃ f s a, Life exE Plain (.ahead f s) a ∧ a.data 1 = some 7 ∧ (scheduled s 1).head? = some .acquire ∧ 0 < a.refs 0 ∧ s.reads.length = 1 :=
  okA_life plainB_plain (m := 2) (exActs.take 6) (by decide +kernel)
/-- The same in a sequence that is not `Plain`: block 1 gets the memory from which block 0 is being written. -/
example : ∃ f s a, Life exE Known (.ahead f s) a ∧ a.data 1 = some 7 ∧ (scheduled s 1).head? = some .acquire ∧ (s.wsched 0).map (·.buf) = (s.b.blocks 1).int ∧ (s.wsched 0).isSome = true :=
  okA_life knownB_known (m := 1) badActs (by decide +kernel)
/-- The internal block for block 1, without data, is reserved. -/
example : ∃ f s a, Life exE Plain (.ahead f s) a ∧ .acquire ∈ scheduled s 1 ∧ (s.b.blocks 1).isInternal = false :=
  okA_life plainB_plain (m := 2) [.call .alloc, .call .alloc, .start (seqOf [(.acquire, 0), (.acquire, 1)]) []] (by decide +kernel)

/-- The read of block 1 is done while `acquire` waits for it. -/
example : ∃ f s a, Life exE Known (.ahead f s) a ∧ s.reads.length = 1 ∧ (step exE s (.acquire 1 false)).map (fun r => (r.1, r.2.reads.length)) = some (.data 7, 0) ∧ (s.wsched 0) = none :=
  okA_life knownB_known (m := 1) [.call .alloc, .call .alloc, .call (.client 7), .call (.init 1 (some 1)), .start (seqOf [(.acquire, 1)]) []] (by decide +kernel)

/-! ### C95 -/

/-- C95 (partial: before `flush`; `C95_false`).  The sequence is scheduled as far as memory permits: the first
operation not scheduled, if any, is an `acquire` that needs an internal block, and all internal blocks are acquired, or
reserved for or attached to blocks that scheduled operations use. -/
theorem C95_partial (E : Env D) (hE : ∀ l, E.pick l ∉ l) {s : St D} {a : Abs D} (h : Life E Known (.ahead false s) a) :
    ∃ S, s.pred = S ++ s.next ∧ (∀ c, scheduled s c = (S.filter fun x => x.id == c).map (·.op)) ∧
      ∀ x l, s.next = x :: l → (x.op = .acquire ∨ x.op = .acquireUninit) ∧ (s.b.blocks x.id).isInternal = false ∧
        Swap.attachedCount s.b + reservedCount s = s.b.max ∧
        ∀ c, (s.b.blocks c).isInternal = true → a.refs c = 0 → ∃ y ∈ S, y.id = c ∧ (y.op = .acquire ∨ y.op = .acquireUninit ∨ y.op = .deinit ∨ y.op = .extract) :=
  ahead_known E hE h

/-- Room for one: the `acquire` of block 1 is not scheduled while block 0 is acquired. -/
example : ∃ f s a, Life exE Plain (.ahead f s) a ∧ f = false ∧ s.next.head?.map (·.id) = some 1 ∧ 0 < a.refs 0 :=
  okA_life plainB_plain (m := 1) (exActs.take 6) (by decide +kernel)

/-- In a sequence that is not `Plain`: block 0 is kept for its next use, and its write is under way because of the `extract`. -/
example : ∃ f s a, Life exE Known (.ahead f s) a ∧ f = false ∧ s.next.head?.map (·.id) = some 1 ∧ (s.b.blocks 0).isInternal = true ∧ a.refs 0 = 0 ∧ scheduled s 0 = [.acquire, .release, .extract, .init] :=
  okA_life knownB_known (m := 1) (badActs.take 8) (by decide +kernel)

/-- C95 is false after `flush`, which gives up the schedule: nothing is scheduled, though nothing is left to be scheduled. -/
theorem C95_false : ¬ ∀ (E : Env Nat) (dflt : Nat), (∀ l, E.pick l ∉ l) → (∀ d, E.fill d = dflt) → ∀ (f : Bool) (s : St Nat) (a : Abs Nat),
    Life E Plain (.ahead f s) a → ∃ S, s.pred = S ++ s.next ∧ ∀ c, scheduled s c = (S.filter fun x => x.id == c).map (·.op) := by
  intro h
  obtain ⟨f, s, a, h1, h2, h3, h4⟩ := okA_life (P := fun _ s _ => s.pred = seqOf [(.acquire, 0)] ∧ s.next = [] ∧ scheduled s 0 = []) plainB_plain (m := 1)
    [.call .alloc, .start (seqOf [(.acquire, 0), (.releaseDirty, 0), (.acquire, 0)]) [], acq 0, wri 0 5, rel 0 true, .call .flush] (by decide +kernel)
  obtain ⟨S, k1, k2⟩ := h exE 0 exE_fresh (fun _ => rfl) f s a h1
  rw [h3, List.append_nil] at k1
  have := k2 0
  rw [h4, ← k1, h2] at this
  exact absurd this (by decide)

/-! ### C96 -/

/-- C96.  Internal blocks are free, attached, reserved, or not yet allocated. -/
theorem C96 (E : Env D) (hE : ∀ l, E.pick l ∉ l) {f : Bool} {s : St D} {a : Abs D} (h : Life E Known (.ahead f s) a) :
    s.b.free.length + Swap.attachedCount s.b + reservedCount s + s.b.remaining = s.b.max :=
  account_known E hE h

example : ∃ f s a, Life exE Plain (.ahead f s) a ∧ s.b.max = 4 ∧ s.b.free.length = 2 ∧ Swap.attachedCount s.b = 1 ∧ reservedCount s = 1 ∧ s.b.remaining = 0 :=
  okA_life plainB_plain (m := 4) [.call .alloc, .call .alloc, .start (seqOf [(.acquire, 0), (.acquire, 1)]) [], acq 0] (by decide +kernel)

/-- In a sequence that is not `Plain`. -/
example : ∃ f s a, Life exE Known (.ahead f s) a ∧ s.b.max = 1 ∧ s.b.free.length = 0 ∧ Swap.attachedCount s.b = 1 ∧ reservedCount s = 0 ∧ s.b.remaining = 0 :=
  okA_life knownB_known (m := 1) badActs (by decide +kernel)

/-! ### C97 -/

/-- C97 (partial: `C97_false`).  A block loses its internal block to another one only when there is no free one, and then it
is the one with the smallest identifier of the evictable blocks not needed by scheduled operations; so it is the least
recently released of them if their identifiers are in the order of their releases. -/
theorem C97_partial {E : Env D} {s s' : St D} {c v : Nat} {r : Bool} (h : reserve E s c = some (r, s')) (hv : (s.b.blocks v).isInternal = true) (hv' : (s'.b.blocks v).isInternal = false) :
    s.b.free = [] ∧ s.b.remaining = 0 ∧ v ∈ s.freeEv ∧ (∀ i ∈ s.freeEv, v ≤ i) ∧
      ∀ l : List (Op D), (∀ i ∈ s.freeEv, ∀ j ∈ s.freeEv, i < j → Swap.age j l < Swap.age i l) → ∀ w ∈ s.freeEv, w ≠ v → Swap.age w l < Swap.age v l := by
  obtain ⟨h1, h2, h3, h4⟩ := reserve_victim h (by intro hc; rw [SB.isInternal, hc] at hv; cases hv) (by simpa [SB.isInternal] using hv')
  refine ⟨h3, h4, h1, h2, fun l ho w hw hne => ho v h1 w hw ?_⟩
  have := h2 w hw
  omega

/-- Block 0 gives its internal block to block 1. -/
example : ∃ f s a, Life exE Plain (.ahead f s) a ∧ (s.b.blocks 0).isInternal = true ∧
    ((reserve exE (listOp { s with freeEv := [0] } ⟨.acquire, 1, 0⟩) 1).map fun r => (r.1, (r.2.b.blocks 0).isInternal)) = some (true, false) :=
  okA_life plainB_plain (m := 1) [.call .alloc, .call .alloc, .start (seqOf [(.acquire, 0), (.releaseDirty, 0)]) [], acq 0, wri 0 5, rel 0 true] (by decide +kernel)

/-- C97 is false: of two blocks not used again the one with the smaller identifier is evicted, though it was released
later. -/
theorem C97_false : ¬ ∀ (E : Env Nat), (∀ l, E.pick l ∉ l) → ∀ (max : Nat) (b : Swap.St Nat) (l : List (Op Nat)), Swap.LruHist E max b l →
    ∀ (seq : List Elem) (orc : List (List Disk)) (s : St Nat), Plain b.n seq → start E b seq orc = some s → ∀ v w, (∀ x ∈ seq, x.id ≠ v ∧ x.id ≠ w) →
    (b.blocks v).isEvictable = true → (s.b.blocks v).isInternal = false → (s.b.blocks w).isEvictable = true → Swap.age w l < Swap.age v l := by
  intro h
  have run : ∃ b l, Swap.LruHist exE 2 b l ∧ (∃ s, start exE b (seqOf [(.acquire, 2)]) [] = some s ∧ (s.b.blocks 0).isInternal = false ∧ (s.b.blocks 1).isEvictable = true) ∧
      b.n = 3 ∧ (b.blocks 0).isEvictable = true ∧ Swap.age 0 l = 0 ∧ Swap.age 1 l = 2 := by
    refine ⟨_, _, Swap.LruHist.step (.release 0 true (fun _ => 0)) (Swap.LruHist.step (.acquire 0 false) (Swap.LruHist.step (.release 1 true (fun _ => 0)) (Swap.LruHist.step (.acquire 1 false)
      (Swap.LruHist.step .alloc (Swap.LruHist.step .alloc (Swap.LruHist.step .alloc (Swap.LruHist.start 2 1 (fun _ => 0) (fun _ => 0) rfl)
      ?_ ?_ rfl) ?_ ?_ rfl) ?_ ?_ rfl) ?_ ?_ rfl) ?_ ?_ rfl) ?_ ?_ rfl) ?_ ?_ rfl, ⟨_, rfl, rfl, rfl⟩, rfl, rfl, rfl, rfl⟩ <;> intro _ _ hc <;> cases hc
  obtain ⟨b, l, h1, ⟨s, h2, h3, h4⟩, h5, h6, h7, h8⟩ := run
  have := h exE exE_fresh 2 b l h1 _ _ s (by rw [h5]; exact plainB_plain _ _ rfl) h2 0 1 (by decide) h6 h3 h4
  omega

end Foxxll.Ahead
