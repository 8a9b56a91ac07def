import Verif.Proofs.PoolStoreMain
import Verif.Proofs.PoolStoreAux
import Verif.Props.Pools
/-
Property C130: reads through the read/write pool, down to the queues and the files.
-/
namespace Foxxll.PoolStore
open Foxxll

variable {k : Queue.Kind} {qid : Nat → Nat} {cfgs : List (Nat × Bool)} {own : List Mgr.Bid} {loc : Nat → Nat} {raw : Nat}

/-- **C130 is false** with separate queues for reads and writes (the default): a prefetch of another block is hinted and invalidated at once,
which leaves the worker with a credit for a request that is not there any more; block 0 is written (11, 12); then a read from the pool takes the busy block back
and the next read of block 0 is a request of its own, which the worker serves before the write.  It finds the old content (0, 0).
No request has failed. -/
theorem C130_false : ∃ (cfgs : List (Nat × Bool)) (own : List Mgr.Bid) (s : Sys), Run .twoQ id cfgs own id 2 (fun _ _ => True) s ∧ s.Fine ∧
    (0, [11, 12], [0, 0]) ∈ s.p.results := by
  obtain ⟨s, h, hp⟩ := witness_run (k := .twoQ) (P := fun _ _ => True) (fun _ _ => true) (fun _ _ _ => trivial) 0 2 evsF okF evsF_run
  obtain ⟨h1, h2⟩ := okF_of hp
  exact ⟨_, _, s, h, h2, h1⟩

/-- **C130, partial**: with a single queue per disk (`Calm` says nothing then), or with separate queues if what would be canceled is
finished and no prefetch of the block is under way when it is written: unless a request of the pools has failed, every read of the client that has been waited for
has found the content of the last `write` of the block before it, or what the file contained when the pools were created
(`C130_history`).  Any other clients of the same disks, any interleaving, partial transfers. -/
theorem C130_partial {s : Sys} (hr : Run k qid cfgs own loc raw (Calm k qid own loc) s) (hf : s.Fine) :
    ∀ b want got, (b, want, got) ∈ s.p.results → got = want := by
  obtain ⟨h, I⟩ := run_sim hr hf
  exact Pool.C20_partial (s.view qid own loc) I.reach

/-- For a single queue without any condition. -/
theorem C130_single {s : Sys} (hr : Run .oneQ qid cfgs own loc raw (fun _ _ => True) s) (hf : s.Fine) :
    ∀ b want got, (b, want, got) ∈ s.p.results → got = want :=
  C130_partial (run_imp (fun _ _ _ => calm_oneQ) hr) hf

/-- One queue: an older write of the block and a prefetch are canceled in time; the first read takes the block back from the pool, the second comes from the disk. -/
example : ∃ s, Run .oneQ id [(8, false)] own2 id 2 (fun _ _ => True) s ∧ s.Fine ∧ s.p.results = [(0, [21, 22], [21, 22]), (0, [21, 22], [21, 22])] ∧
    (s.d.qs 0).cancelled = [1, 3] := by
  obtain ⟨s, h, hp⟩ := witness_run (k := .oneQ) (P := fun _ _ => True) (fun _ _ => true) (fun _ _ _ => trivial) 0 2 evs1 ok1 evs1_run
  simp only [ok1, Bool.and_eq_true, beq_iff_eq] at hp
  obtain ⟨h1, h2, _⟩ := okR_of hp.1
  exact ⟨s, h, h2, h1, hp.2⟩

/-- Two queues, with an older write and a prefetch that are finished. -/
example : ∃ s, Run .twoQ id [(8, false)] own2 id 2 (Calm .twoQ id own2 id) s ∧ s.Fine ∧ s.p.results = [(0, [21, 22], [21, 22]), (0, [21, 22], [21, 22])] ∧
    s.act = .idle ∧ ∀ i, i < s.p.nextReq → ¬ Store.Pending id s.d (s.rid i) := by
  obtain ⟨s, h, hp⟩ := witness_run (k := .twoQ) (P := Calm .twoQ id own2 id) (calmB id own2 id) (fun _ _ => calmB_of) 0 2 evs2 okR evs2_run
  obtain ⟨h1, h2, h3, h4⟩ := okR_of hp
  exact ⟨s, h, h2, h1, h3, h4⟩

/-- What the history fields record: `last` is changed at the end of `write` only, to the content of the block; `read` records the current `last` of its identifier;
when the client waits for the request, this value and the content of its block are recorded. -/
theorem C130_history {s s' : Sys} {ev : Ev} (hs : s.step k qid own loc ev = some s') :
    (s'.p.last = match ev, s.act with
      | .submit _, .drop blk bid _ _ => fun b => if b = bid then s.d.mem (loc blk) else s.p.last b
      | _, _ => s.p.last) ∧
    (match ev with
     | .call (.read _ b) _ => ∃ x r, s'.p.upend = s.p.upend ++ [⟨x, r, b, s.p.last b⟩]
     | .call (.collect i) _ => ∃ e, s.p.upend[i]? = some e ∧ s'.p.upend = s.p.upend.eraseIdx i ∧
        s'.p.results = s.p.results ++ [(e.bid, e.want, s.d.mem (loc e.blk))]
     | _ => s'.p.upend = s.p.upend ∧ s'.p.results = s.p.results) :=
  step_history hs

/-- At the start `last` is the content of the files, and nothing has been read. -/
theorem C130_start (nw np : Nat) (d : Store.St) (rid : Nat → Nat) {n dk : Nat} {b : Mgr.Bid} (hb : own[n]? = some b) (hd : b.storage = .managed dk) :
    (init own loc nw np d rid).p.last n = Files.pread (d.files dk) b.off b.size ∧ (init own loc nw np d rid).p.results = [] := by
  refine ⟨?_, rfl⟩
  show content own d n = _
  unfold content Files.pread
  rw [hb]
  simp only [hd]

/-- On the disks: when no request of the pools is pending, the files hold the last content written to each block. -/
theorem C130_disk_partial {s : Sys} (hr : Run k qid cfgs own loc raw (Calm k qid own loc) s) (hf : s.Fine) (hi : s.act = .idle)
    (hp : ∀ i, i < s.p.nextReq → ¬ Store.Pending qid s.d (s.rid i)) {n dk : Nat} {b : Mgr.Bid} (hb : own[n]? = some b) (hd : b.storage = .managed dk) :
    Files.pread (s.d.files dk) b.off b.size = s.p.last n := by
  obtain ⟨h, I⟩ := run_sim hr hf
  have hq : (s.view qid own loc).q = [] := by
    cases hq : (s.view qid own loc).q with
    | nil => rfl
    | cons x l =>
      exfalso
      have hx : x ∈ (s.view qid own loc).q := by rw [hq]; simp
      refine hp x.id (I.idlt x hx) (I.pending hx ?_)
      rintro ⟨_, _, _, _, _, e, _⟩
      rw [hi] at e; cases e
  have := (Pool.reach_inv I.reach).ci.val rfl n
  have e : Pool.eff (s.view qid own loc).mem (s.view qid own loc).disk (s.view qid own loc).q n = content own s.d n := by
    rw [hq]; rfl
  have e2 : content own s.d n = s.p.last n := e.symm.trans this
  rw [← e2]
  unfold content Files.pread
  rw [hb]
  simp only [hd]

/-- The pools behave as over disks that keep the order of accesses to the same block: all that is proved for those (C19, C20) holds. -/
theorem C130_refines {s : Sys} (hr : Run k qid cfgs own loc raw (Calm k qid own loc) s) (hf : s.Fine) :
    Pool.Reach true (s.view qid own loc) := by
  obtain ⟨h, I⟩ := run_sim hr hf
  exact I.reach

end Foxxll.PoolStore
