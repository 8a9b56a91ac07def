/-
Properties C19 and C20: the write pool, the prefetch pool and the read/write pool.
-/
import Verif.Proofs.Pools
import Verif.Proofs.PoolsAux

namespace Foxxll.Pool

variable {V : Type}

/-! ### C19 -/

/-- The blocks with a request. -/
def busyBlocks (s : St V) : List Nat := s.wbusy.map (·.blk) ++ s.pbusy.map (·.blk) ++ s.upend.map (·.blk)

/-- **C19 is false**: `wait_any` in `steal` may return without a finished request after a
spurious wake-up of its switch; the assertion of write_pool.hpp:166 then fails (without
assertions the end iterator is dereferenced). -/
theorem C19_false : ∃ s : St Nat, Reach true s ∧ Legal s (.steal none []) ∧ wsize s = 1 ∧
    step true s (.steal none []) = .assertFail := by
  obtain ⟨s, h, hp⟩ := witness (V := Nat) (ordered := true) (Reach.start 0 0 (fun _ => 0) (fun _ => 0))
    [.alloc, .write 0 7 [] false]
    (fun s => wsize s == 1 && (match step true s (.steal none []) with | .assertFail => true | _ => false)) (by decide)
  simp only [Bool.and_eq_true, beq_iff_eq] at hp
  refine ⟨s, h, trivial, hp.1, ?_⟩
  have := hp.2
  split at this
  · assumption
  · simp at this

/-- For every history and every completion order: no block is in two places, the size counter of
the prefetch pool is the number of its free blocks, and every request under way belongs to a busy
block.  Missing for C19: spurious wake-ups in `steal`. -/
theorem C19_partial {ordered : Bool} (s : St V) (h : Reach ordered s) :
    (s.wfree ++ s.pfree ++ s.uidle ++ busyBlocks s).Nodup ∧ psize s = s.pfree.length + s.pbusy.length ∧
    ∀ x ∈ s.q, x.blk ∈ busyBlocks s ∧ x.blk ∉ s.wfree ∧ x.blk ∉ s.pfree ∧ x.blk ∉ s.uidle := by
  have hi := reach_inv h
  refine ⟨hi.nd, by rw [psize, hi.pfs], ?_⟩
  intro x hx
  have hb : x.blk ∈ busyBlocks s := by
    obtain ⟨e, he, h1, _⟩ := hi.ci.infl x hx
    have : x.blk ∈ (entsOf s).map (·.blk) := List.mem_map.2 ⟨e, he, h1⟩
    simp only [entsOf, List.map_append, map_wE_blk, map_pE_blk, map_uE_blk] at this
    exact this
  have hn : ∀ y ∈ s.wfree ++ s.pfree ++ s.uidle, x.blk ≠ y := by
    intro y hy heq
    exact (List.nodup_append.1 hi.nd).2.2 y hy x.blk hb heq.symm
  simp only [List.mem_append] at hn
  exact ⟨hb, fun hh => hn _ (Or.inl (Or.inl hh)) rfl, fun hh => hn _ (Or.inl (Or.inr hh)) rfl, fun hh => hn _ (Or.inr hh) rfl⟩

/-- `steal` gives a block of the pool that no I/O uses, and the pool does not keep it. -/
theorem C19_steal {ordered : Bool} (s s' : St V) (c : Option Nat) (polled : List Nat) (h : Reach ordered s)
    (hs : step ordered s (.steal c polled) = .ok s') :
    ∃ p, s'.uidle = s.uidle ++ [p] ∧ (p ∈ s.wfree ∨ p ∈ s.wbusy.map (·.blk)) ∧ p ∉ s'.wfree ∧ p ∉ s'.wbusy.map (·.blk) ∧
      ∀ x ∈ s.q, x.blk ≠ p := by
  have h' : Reach ordered s' := Reach.next (.steal c polled) h trivial hs
  have hpart := C19_partial s' h'
  simp only [step] at hs
  split at hs
  · split at hs <;> simp at hs
    rename_i s1 p hw
    have hu : s1.uidle = s.uidle ∧ s1.q = s.q ∧ (p ∈ s.wfree ∨ p ∈ s.wbusy.map (·.blk)) := by
      unfold wsteal at hw
      split at hw
      · simp at hw
      split at hw
      · rename_i q hq
        simp at hw
        obtain ⟨rfl, rfl⟩ := hw
        exact ⟨rfl, rfl, Or.inl (List.mem_of_getLast? hq)⟩
      · split at hw
        · simp at hw
        split at hw
        · simp at hw
        rename_i e he
        split at hw
        · simp at hw
          obtain ⟨rfl, rfl⟩ := hw
          exact ⟨rfl, rfl, Or.inr (List.mem_map_of_mem (List.mem_of_getElem? he))⟩
        · simp at hw
    subst hs
    refine ⟨p, by rw [← hu.1], hu.2.2, ?_, ?_, ?_⟩
    · intro hp
      have := hpart.1
      simp only [List.nodup_append, List.mem_append, List.mem_singleton] at this
      exact this.1.2.2 p (Or.inl hp) p (Or.inr rfl) rfl
    · intro hp
      have := hpart.1
      rw [List.nodup_append] at this
      exact this.2.2 p (by simp) p (by simp only [busyBlocks, List.mem_append]; exact Or.inl (Or.inl hp)) rfl
    · intro x hx heq
      have := (hpart.2.2 x (by show x ∈ s1.q; rw [hu.2.1]; exact hx)).2.2.2
      exact this (by rw [heq]; simp)
  · simp at hs

/-- The size of the write pool: `add` and `write` give a block to the pool, `steal` takes one,
`resize` adds blocks at once or removes them one by one; nothing else changes it. -/
theorem C19_wsize {ordered : Bool} (s s' : St V) (op : Op V) (hs : step ordered s op = .ok s') :
    match op with
    | .add _ | .write _ _ _ _ => wsize s' = wsize s + 1
    | .steal _ _ => wsize s' + 1 = wsize s
    | .resizeW n => wsize s' = n ∨ n ≤ wsize s ∧ wsize s' = wsize s ∧ s'.pc = .resizing (wsize s - n)
    | .work _ _ =>
      match s.pc with
      | .resizing (k + 1) => wsize s' + 1 = wsize s ∧ s'.pc = .resizing k
      | _ => wsize s' = wsize s
    | _ => wsize s' = wsize s := by
  cases op with
  | alloc => simp only [step] at hs; split at hs <;> simp at hs; subst hs; rfl
  | fill blk v => simp only [step] at hs; split at hs <;> simp at hs; subst hs; rfl
  | write blk b cw cp =>
    simp only [step] at hs
    split at hs
    · split at hs <;> simp at hs
      subst hs
      simp only
      rw [(sizes_invalBegin _ _ _ _).1, (sizes_wwrite _ _ _ _).1]
      rfl
    · simp at hs
  | hint b => simp only [step] at hs; split at hs <;> simp at hs; subst hs; exact wsize_hint s b
  | invalidate b c => simp only [step] at hs; split at hs <;> simp at hs; subst hs; exact (sizes_invalBegin _ _ _ _).1
  | cancelRead =>
    simp only [step] at hs
    split at hs
    · split at hs
      · split at hs <;> simp at hs
        subst hs; rfl
      · simp at hs
    · simp at hs
  | read blk b =>
    simp only [step] at hs
    split at hs <;> simp at hs
    subst hs
    exact (sizes_pread { s with uidle := s.uidle.erase blk } blk b).1
  | steal c polled =>
    simp only [step] at hs
    split at hs
    · split at hs <;> simp at hs
      rename_i s1 p hw
      subst hs
      exact (sizes_wsteal hw).1
    · simp at hs
  | add blk =>
    simp only [step] at hs
    split at hs <;> simp at hs
    subst hs
    simp only [wsize, List.length_append, List.length_cons, List.length_nil]
    omega
  | stealP =>
    simp only [step] at hs
    split at hs
    · split at hs <;> simp at hs
      subst hs; rfl
    · simp at hs
  | addP blk => simp only [step] at hs; split at hs <;> simp at hs; subst hs; rfl
  | resizeW n =>
    simp only [step] at hs
    split at hs <;> simp at hs
    subst hs
    simp only [wresize]
    split
    · left
      simp only [wsize, List.length_append, List.length_range']
      simp only [wsize] at *
      omega
    · right
      exact ⟨by omega, rfl, rfl⟩
  | resizeP n =>
    simp only [step] at hs
    split at hs <;> simp at hs
    subst hs
    simp only [presize]
    split <;> rfl
  | collect i =>
    simp only [step] at hs
    split at hs
    · split at hs
      · simp at hs
      · split at hs <;> simp at hs
        subst hs; rfl
    · simp at hs
  | work c polled =>
    simp only [step] at hs
    split at hs
    · simp at hs
    · rename_i b r hpc
      rw [hpc]
      exact (sizes_invalEnd hs).1
    · rename_i hpc
      simp at hs
      rw [hpc]
      subst hs; rfl
    · rename_i k hpc
      split at hs <;> simp at hs
      rename_i s1 p hw
      rw [hpc]
      subst hs
      exact ⟨(sizes_wsteal hw).1, rfl⟩
  | serve r =>
    simp only [step] at hs
    split at hs
    · simp at hs
    split at hs
    · split at hs
      · simp at hs
      · split at hs <;> (simp at hs; subst hs; rfl)
    · simp at hs

/-- The size of the prefetch pool: only `add_prefetch`, `steal_prefetch` and `resize_prefetch`
change it; `resize_prefetch` reaches the new size unless busy blocks are in the way. -/
theorem C19_psize {ordered : Bool} (s s' : St V) (op : Op V) (h : Reach ordered s) (hs : step ordered s op = .ok s') :
    match op with
    | .addP _ => psize s' = psize s + 1
    | .stealP => psize s' + 1 = psize s
    | .resizeP n => psize s' = max n s.pbusy.length
    | _ => psize s' = psize s := by
  have hpf := (reach_inv h).pfs
  cases op with
  | alloc => simp only [step] at hs; split at hs <;> simp at hs; subst hs; rfl
  | fill blk v => simp only [step] at hs; split at hs <;> simp at hs; subst hs; rfl
  | write blk b cw cp =>
    simp only [step] at hs
    split at hs
    · split at hs <;> simp at hs
      subst hs
      simp only
      rw [(sizes_invalBegin _ _ _ _).2, (sizes_wwrite _ _ _ _).2]
      rfl
    · simp at hs
  | hint b => simp only [step] at hs; split at hs <;> simp at hs; subst hs; exact psize_hint s b
  | invalidate b c => simp only [step] at hs; split at hs <;> simp at hs; subst hs; exact (sizes_invalBegin _ _ _ _).2
  | cancelRead =>
    simp only [step] at hs
    split at hs
    · split at hs
      · split at hs <;> simp at hs
        subst hs; rfl
      · simp at hs
    · simp at hs
  | read blk b =>
    simp only [step] at hs
    split at hs <;> simp at hs
    subst hs
    exact (sizes_pread { s with uidle := s.uidle.erase blk } blk b).2
  | steal c polled =>
    simp only [step] at hs
    split at hs
    · split at hs <;> simp at hs
      rename_i s1 p hw
      subst hs
      exact (sizes_wsteal hw).2.1
    · simp at hs
  | add blk => simp only [step] at hs; split at hs <;> simp at hs; subst hs; rfl
  | stealP =>
    simp only [step] at hs
    split at hs
    · split at hs <;> simp at hs
      rename_i p hp
      subst hs
      have := List.length_pos_of_mem (List.mem_of_getLast? hp)
      simp only [psize]
      omega
    · simp at hs
  | addP blk =>
    simp only [step] at hs
    split at hs <;> simp at hs
    subst hs
    simp only [psize]
    omega
  | resizeW n =>
    simp only [step] at hs
    split at hs <;> simp at hs
    subst hs
    simp only [wresize]
    split <;> rfl
  | resizeP n =>
    simp only [step] at hs
    split at hs <;> simp at hs
    subst hs
    simp only [presize]
    split
    · simp only [psize] at *; omega
    · simp only [psize] at *; omega
  | collect i =>
    simp only [step] at hs
    split at hs
    · split at hs
      · simp at hs
      · split at hs <;> simp at hs
        subst hs; rfl
    · simp at hs
  | work c polled =>
    simp only [step] at hs
    split at hs
    · simp at hs
    · exact (sizes_invalEnd hs).2
    · simp at hs
      subst hs; rfl
    · split at hs <;> simp at hs
      rename_i s1 p hw
      subst hs
      exact (sizes_wsteal hw).2.1
  | serve r =>
    simp only [step] at hs
    split at hs
    · simp at hs
    split at hs
    · split at hs
      · simp at hs
      · split at hs <;> (simp at hs; subst hs; rfl)
    · simp at hs

/-- Without spurious wake-ups no assertion of the pools fails for a client that keeps the
protocol and steals only from a pool that has blocks. -/
theorem C19_no_assert {ordered : Bool} (s : St V) (op : Op V) (h : Reach ordered s) (hl : Legal s op)
    (hsteal : ∀ c polled, op = .steal c polled → c ≠ none ∧ 0 < wsize s)
    (hwork : ∀ c polled k, op = .work c polled → s.pc = .resizing (k + 1) → c ≠ none ∧ 0 < wsize s) :
    step ordered s op ≠ .assertFail := by
  have hws : ∀ c polled, c ≠ none → 0 < wsize s → wsteal s c polled ≠ .assertFail := by
    intro c polled hc hw hh
    unfold wsteal at hh
    split at hh
    · omega
    split at hh
    · simp at hh
    split at hh
    · exact hc rfl
    split at hh
    · simp at hh
    split at hh <;> simp at hh
  intro hh
  cases op with
  | write blk b cw cp =>
    simp only [step] at hh
    split at hh
    · split at hh
      · rename_i hany
        simp only [List.any_eq_true, Bool.and_eq_true, beq_iff_eq] at hany
        obtain ⟨e, he, _, h2⟩ := hany
        have := (List.nodup_append.1 (C19_partial s h).1).2.2 blk (by simp [hl.1]) e.blk
          (by simp only [busyBlocks, List.mem_append]; exact Or.inl (Or.inl (List.mem_map_of_mem he)))
        exact this h2.symm
      · simp at hh
    · simp at hh
  | steal c polled =>
    obtain ⟨h1, h2⟩ := hsteal c polled rfl
    simp only [step] at hh
    split at hh
    · split at hh <;> simp at hh
      rename_i hw
      exact hws c polled h1 h2 hw
    · simp at hh
  | work c polled =>
    simp only [step] at hh
    split at hh
    · simp at hh
    · simp only [invalEnd] at hh
      split at hh
      · simp at hh
      · split at hh <;> simp at hh
    · simp at hh
    · rename_i k hpc
      obtain ⟨h1, h2⟩ := hwork c polled k rfl hpc
      split at hh <;> simp at hh
      rename_i hw
      exact hws c polled h1 h2 hw
  | collect i =>
    simp only [step] at hh
    split at hh
    · split at hh
      · simp at hh
      · split at hh <;> simp at hh
    · simp at hh
  | cancelRead =>
    simp only [step] at hh
    split at hh
    · split at hh
      · split at hh <;> simp at hh
      · simp at hh
    · simp at hh
  | stealP =>
    simp only [step] at hh
    split at hh
    · split at hh <;> simp at hh
    · simp at hh
  | serve r =>
    simp only [step] at hh
    split at hh
    · simp at hh
    split at hh
    · split at hh
      · simp at hh
      · split at hh <;> simp at hh
    · simp at hh
  | _ =>
    simp only [step] at hh
    split at hh <;> simp at hh

/-! ### C20 -/

/-- **C20 is false** for queues that may reorder (linuxaio): the older of two writes to the same
block, whose cancellation came too late, may be served after the newer one. -/
theorem C20_false : ∃ s : St Nat, Reach false s ∧ (7, 2, 1) ∈ s.results := by
  obtain ⟨s, h, hp⟩ := witness (V := Nat) (ordered := false) (Reach.start 0 0 (fun _ => 0) (fun _ => 0))
    [.alloc, .fill 0 1, .write 0 7 [] false, .alloc, .fill 1 2, .write 1 7 [] false, .serve 1, .serve 0,
     .steal (some 1) [], .read 1 7, .serve 2, .collect 0]
    (fun s => s.results.contains (7, 2, 1)) (by decide)
  exact ⟨s, h, by simpa using hp⟩

/-- If the disk queue keeps the order of accesses to the same block, then every read that is
waited for finds the content most recently written (the second component, see `C20_history`). -/
theorem C20_partial (s : St V) (h : Reach true s) : ∀ b want got, (b, want, got) ∈ s.results → got = want :=
  fun b want got hm => ((reach_inv h).res rfl (b, want, got) hm).symm

/-- What the history fields record: `last` is changed by `write` only, to the content the block
has at the call; `read` records the current `last` of its identifier; when the request is waited
for, this value and the content found are recorded. -/
theorem C20_history {ordered : Bool} (s s' : St V) (op : Op V) (hs : step ordered s op = .ok s') :
    (s'.last = match op with | .write blk b _ _ => upd s.last b (s.mem blk) | _ => s.last) ∧
    (match op with
     | .read _ b => ∃ x r, s'.upend = s.upend ++ [⟨x, r, b, s.last b⟩]
     | .collect i => ∃ e, s.upend[i]? = some e ∧ s'.upend = s.upend.eraseIdx i ∧
        s'.results = s.results ++ [(e.bid, e.want, s.mem e.blk)]
     | _ => s'.upend = s.upend ∧ s'.results = s.results) := by
  have hhint : ∀ (t : St V) b, (hint t b).last = t.last ∧ (hint t b).upend = t.upend ∧ (hint t b).results = t.results := by
    intro t b
    unfold hint
    split
    · exact ⟨rfl, rfl, rfl⟩
    split
    · split
      · exact ⟨rfl, rfl, rfl⟩
      · simp only
        split <;> exact ⟨rfl, rfl, rfl⟩
    · exact ⟨rfl, rfl, rfl⟩
  have hib : ∀ (t : St V) b c r, (invalBegin t b c r).last = t.last ∧ (invalBegin t b c r).upend = t.upend ∧
      (invalBegin t b c r).results = t.results := by
    intro t b c r
    unfold invalBegin
    split
    · exact ⟨rfl, rfl, rfl⟩
    · simp only
      split <;> exact ⟨rfl, rfl, rfl⟩
  have hws : ∀ (t : St V) c polled p, wsteal s c polled = .ok (t, p) → t.last = s.last ∧ t.upend = s.upend ∧ t.results = s.results := by
    intro t c polled p hw
    unfold wsteal at hw
    split at hw
    · simp at hw
    split at hw
    · simp at hw; rw [← hw.1]; exact ⟨rfl, rfl, rfl⟩
    · split at hw
      · simp at hw
      split at hw
      · simp at hw
      split at hw
      · simp at hw; rw [← hw.1]; exact ⟨rfl, rfl, rfl⟩
      · simp at hw
  cases op with
  | alloc => simp only [step] at hs; split at hs <;> simp at hs; subst hs; exact ⟨rfl, rfl, rfl⟩
  | fill blk v => simp only [step] at hs; split at hs <;> simp at hs; subst hs; exact ⟨rfl, rfl, rfl⟩
  | write blk b cw cp =>
    simp only [step] at hs
    split at hs
    · split at hs <;> simp at hs
      subst hs
      obtain ⟨h1, h2, h3⟩ := hib (wwrite { s with uidle := s.uidle.erase blk, last := upd s.last b (s.mem blk) } blk b cw) b cp true
      exact ⟨h1, h2, h3⟩
    · simp at hs
  | hint b => simp only [step] at hs; split at hs <;> simp at hs; subst hs; exact hhint s b
  | invalidate b c => simp only [step] at hs; split at hs <;> simp at hs; subst hs; exact hib s b c false
  | cancelRead =>
    simp only [step] at hs
    split at hs
    · split at hs
      · split at hs <;> simp at hs
        subst hs; exact ⟨rfl, rfl, rfl⟩
      · simp at hs
    · simp at hs
  | read blk b =>
    simp only [step] at hs
    split at hs <;> simp at hs
    subst hs
    have : ∀ t : St V, (pread t blk b).1.last = t.last ∧ (pread t blk b).1.upend = t.upend := by
      intro t
      unfold pread
      split
      · exact ⟨rfl, rfl⟩
      · split <;> exact ⟨rfl, rfl⟩
    refine ⟨(this _).1, ?_⟩
    simp only
    rw [(this _).2]
    exact ⟨_, _, rfl⟩
  | steal c polled =>
    simp only [step] at hs
    split at hs
    · split at hs <;> simp at hs
      rename_i s1 p hw
      subst hs
      exact hws s1 _ _ p hw
    · simp at hs
  | add blk => simp only [step] at hs; split at hs <;> simp at hs; subst hs; exact ⟨rfl, rfl, rfl⟩
  | stealP =>
    simp only [step] at hs
    split at hs
    · split at hs <;> simp at hs
      subst hs; exact ⟨rfl, rfl, rfl⟩
    · simp at hs
  | addP blk => simp only [step] at hs; split at hs <;> simp at hs; subst hs; exact ⟨rfl, rfl, rfl⟩
  | resizeW n =>
    simp only [step] at hs
    split at hs <;> simp at hs
    subst hs
    simp only [wresize]
    split <;> exact ⟨rfl, rfl, rfl⟩
  | resizeP n =>
    simp only [step] at hs
    split at hs <;> simp at hs
    subst hs
    simp only [presize]
    split <;> exact ⟨rfl, rfl, rfl⟩
  | collect i =>
    simp only [step] at hs
    split at hs
    · split at hs
      · simp at hs
      · rename_i e he
        split at hs <;> simp at hs
        subst hs
        exact ⟨rfl, e, he, rfl, rfl⟩
    · simp at hs
  | work c polled =>
    simp only [step] at hs
    split at hs
    · simp at hs
    · unfold invalEnd at hs
      split at hs
      · simp at hs
      · split at hs
        · simp only [Res.ok.injEq] at hs
          subst hs
          split
          · exact hhint _ _
          · exact ⟨rfl, rfl, rfl⟩
        · simp at hs
    · simp at hs
      subst hs; exact ⟨rfl, rfl, rfl⟩
    · split at hs <;> simp at hs
      rename_i s1 p hw
      subst hs
      exact hws s1 _ _ p hw
  | serve r =>
    simp only [step] at hs
    split at hs
    · simp at hs
    split at hs
    · split at hs
      · simp at hs
      · split at hs <;> (simp at hs; subst hs; exact ⟨rfl, rfl, rfl⟩)
    · simp at hs

/-- A history with a hint that takes over a pending write, a re-write that invalidates it, the
hint repeated by the re-write, and a read that finds the second content. -/
example : ∃ s : St Nat, Reach true s ∧ s.results = [(7, 2, 2)] ∧ s.q.length = 1 ∧ wsize s = 2 ∧ psize s = 2 := by
  obtain ⟨s, h, hp⟩ := witness (V := Nat) (ordered := true) (Reach.start 0 2 (fun _ => 0) (fun _ => 0))
    [.alloc, .fill 2 1, .write 2 7 [] false, .hint 7, .alloc, .fill 3 2, .write 3 7 [] false, .serve 0, .work none [],
     .alloc, .read 4 7, .serve 1, .collect 0, .hint 8]
    (fun s => s.results == [(7, 2, 2)] && s.q.length == 1 && wsize s == 2 && psize s == 2) (by decide)
  simp only [Bool.and_eq_true, beq_iff_eq] at hp
  exact ⟨s, h, hp.1.1.1, hp.1.1.2, hp.1.2, hp.2⟩

end Foxxll.Pool
