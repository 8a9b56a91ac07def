import Verif.Proofs.AheadIdsAux
import Verif.Props.Ahead

/-
C131-C132: the end of a block scheduler, and identifiers in a simulation and its repetition (/repo/foxxll/mng/block_scheduler.hpp).
-/
namespace Foxxll.Swap

variable {D : Type}

/-! ### C131 -/

/-- C131 (partial: not in simulation mode; `C131_false`).  The destructor of a block scheduler works at any time.  It gives back
the external blocks of all blocks that are not acquired, those of acquired blocks and those of the client stay allocated, and it reports
as lost as many internal blocks as there are acquired blocks. -/
theorem C131_partial (E : Env D) (hE : ∀ l, E.pick l ∉ l) {s : St D} {used : List Nat} (h : IdHist E s used) :
    ∃ s', destroy s = some ((acquiredCount s : Int), s') ∧ s'.live = acquiredExt s ++ s.held ∧
      ∀ i, s'.blocks i = if (s.blocks i).isAcquired then s.blocks i else {} := by
  have inv := id_inv hE h
  obtain ⟨s', h1, h2, h3⟩ := destroy_ok inv.core inv.ev (fun hn i => inv.blank i (fun hi => by
    have := ids_length inv.ids
    cases used with
    | nil => cases hi
    | cons x l => simp only [List.length_cons] at this; omega))
  refine ⟨s', h1, live_after h2 h3, fun i => ?_⟩
  rw [h3 i]
  by_cases hr : (s.blocks i).refs = 0
  · simp [hr, SB.isAcquired]
  · have : 0 < (s.blocks i).refs := by omega
    simp [hr, SB.isAcquired, this]

/-- C131 in simulation mode (partial: the client has identifiers at the end, or had none at the start; `C131_false`). -/
theorem C131_sim_partial (E : Env D) (hE : ∀ l, E.pick l ∉ l) {s0 s : St D} {used0 used : List Nat} {m : Sim} {l : List (Op D × Res D)} (h0 : IdHist E s0 used0)
    (h : SimRun E s0 used0 s m used l) (hu : used ≠ [] ∨ used0 = []) :
    ∃ s', destroy s = some ((acquiredCount s : Int), s') ∧ s'.live = acquiredExt s ++ s.held ∧
      ∀ i, s'.blocks i = if (s.blocks i).isAcquired then s.blocks i else {} := by
  have inv := simOk_run hE (id_inv hE h0) h
  obtain ⟨s', h1, h2, h3⟩ := destroy_ok inv.core inv.ev (fun hn i => inv.blank i (fun hi => by
    rcases hu with hu | hu
    · have := ids_length inv.ids
      cases used with
      | nil => exact hu rfl
      | cons x l => simp only [List.length_cons] at this; omega
    · rw [hu] at hi; cases hi))
  refine ⟨s', h1, live_after h2 h3, fun i => ?_⟩
  rw [h3 i]
  by_cases hr : (s.blocks i).refs = 0
  · simp [hr, SB.isAcquired]
  · have : 0 < (s.blocks i).refs := by omega
    simp [hr, SB.isAcquired, this]

/-- Blocks 0, 1 and 2 have data, with room for two; block 1 is on disk, block 2 is acquired again. -/
def endOps : List (Op Nat) :=
  [.alloc, .alloc, .alloc, .client 9, .acquire 0 true, .release 0 true (fun _ => 0), .acquire 1 true, .release 1 true (fun _ => 0), .acquire 2 true, .release 2 true (fun _ => 0),
    .flush, .acquire 2 true]
example : ∃ s, IdHist exE s [2, 1, 0] ∧ acquiredCount s = 1 ∧ s.live.length = 4 ∧ acquiredExt s = [4] ∧ s.held = [1] := by
  refine ⟨_, playOps_hist (m := 2) (z := 1) (mem := fun _ => 0) (disk := fun _ => 0) endOps (x := (_, [2, 1, 0], _)) rfl, ?_, ?_, ?_, ?_⟩ <;> decide +kernel
/-- Simulation after that: block 0 is freed, block 3 is allocated and acquired. -/
example : ∃ s0 s m l, IdHist exE s0 [2, 1, 0] ∧ SimRun exE s0 [2, 1, 0] s m [0, 2, 1] l ∧ acquiredCount s = 1 ∧ s.live.length = 4 ∧ acquiredExt s = [4] := by
  refine ⟨_, _, _, _, playOps_hist (m := 2) (z := 1) (mem := fun _ => 0) (disk := fun _ => 0) endOps (x := (_, [2, 1, 0], _)) rfl,
    playSim_run [.free 0, .alloc, .acquire 0 true] .start (x := (_, _, [0, 2, 1], _)) rfl, ?_, ?_, ?_⟩ <;> decide +kernel

/-- C131 is false in simulation mode: block 0, which is on disk, is freed in the simulation; at the end of the scheduler, its
external block stays allocated, though nothing is acquired and the client has no external blocks. -/
theorem C131_false : ∃ (s0 s s' : St Nat) (m : Sim) (l : List (Op Nat × Res Nat)), IdHist exE s0 [0] ∧ SimRun exE s0 [0] s m [] l ∧ acquiredCount s = 0 ∧ s.held = [] ∧
    destroy s = some (0, s') ∧ s'.live = [1] := by
  refine ⟨_, _, _, _, _, playOps_hist (m := 2) (z := 1) (mem := fun _ => 0) (disk := fun _ => 0) [.alloc, .acquire 0 true, .release 0 true (fun _ => 0), .flush] (x := (_, [0], _)) rfl,
    playSim_run [.free 0] .start (x := (_, _, [], _)) rfl, ?_, ?_, rfl, ?_⟩ <;> decide +kernel

/-! ### C132 -/

/-- C132 (partial: the client has the same identifiers at the end of the simulation as at its start; `C132_false`).  The calls about
identifiers, made again after the simulation with online_lru, allocate the same identifiers as in the simulation. -/
theorem C132_partial (E : Env D) (hE : ∀ l, E.pick l ∉ l) {s0 s1 s2 : St D} {used0 used1 used2 : List Nat} {m : Sim} {l1 l2 : List (Op D × Res D)} (h0 : IdHist E s0 used0)
    (h1 : SimRun E s0 used0 s1 m used1 l1) (hu : ∀ id, id ∈ used1 ↔ id ∈ used0) (h2 : OpRun E (toLru s1) used1 s2 used2 l2)
    (hl : l2.filterMap (fun x => idCall x.1) = l1.filterMap fun x => idCall x.1) : allocated l2 = allocated l1 ∧ ∀ id, id ∈ used2 ↔ id ∈ used0 := by
  have ok := simOk_run hE (id_inv hE h0) h1
  have n1 := sim_names hE (id_inv hE h0) h1
  have inv : IdInv (toLru s1) used1 := simOk_end ok (fun i hi => (hu i).2 hi) rfl rfl rfl (ok.core.congr rfl rfl rfl rfl rfl rfl rfl) (ok.ev.of_ids rfl (toLru_ids s1))
  have n2 := (opRun_inv hE inv h2).2
  rw [hl] at n2
  obtain ⟨e1, e2⟩ := names_unique hu n2 n1
  exact ⟨e1, fun id => (e2 id).trans (hu id)⟩

/-- C132 with offline_lfd after the simulation (partial as above), whatever the recorded sequence. -/
theorem C132_lfd_partial (E : Env D) (hE : ∀ l, E.pick l ∉ l) {s0 s1 s2 : St D} {used0 used1 used2 : List Nat} {m : Sim} {l1 l2 : List (Op D × Res D)} (h0 : IdHist E s0 used0)
    (h1 : SimRun E s0 used0 s1 m used1 l1) (hu : ∀ id, id ∈ used1 ↔ id ∈ used0) (seq : List Elem) (h2 : OpRun E (Lfd.start s1 seq).st used1 s2 used2 l2)
    (hl : l2.filterMap (fun x => idCall x.1) = l1.filterMap fun x => idCall x.1) : allocated l2 = allocated l1 ∧ ∀ id, id ∈ used2 ↔ id ∈ used0 := by
  have ok := simOk_run hE (id_inv hE h0) h1
  have n1 := sim_names hE (id_inv hE h0) h1
  have inv : IdInv (Lfd.start s1 seq).st used1 := simOk_end ok (fun i hi => (hu i).2 hi) rfl rfl rfl (ok.core.congr rfl rfl rfl rfl rfl rfl rfl) (ok.ev.of_ids rfl (lfd_ids s1 seq))
  have n2 := (opRun_inv hE inv h2).2
  rw [hl] at n2
  obtain ⟨e1, e2⟩ := names_unique hu n2 n1
  exact ⟨e1, fun id => (e2 id).trans (hu id)⟩

/-- C132: within the simulation every allocation gives the smallest identifier the client does not have, whatever came before. -/
theorem C132_smallest (E : Env D) (hE : ∀ l, E.pick l ∉ l) {s0 s s' : St D} {used0 used : List Nat} {m m' : Sim} {l : List (Op D × Res D)} (h0 : IdHist E s0 used0)
    (h : SimRun E s0 used0 s m used l) {n : Nat} (hs : simStep E s m .alloc = some (.id n, s', m')) : n ∉ used ∧ ∀ j, j < n → j ∈ used := by
  have ok := simOk_run hE (id_inv hE h0) h
  simp only [simStep, Option.some.injEq, Prod.mk.injEq, Res.id.injEq] at hs
  rw [← hs.1]
  exact (ids_alloc ok.ids).2

/-- C132: the simulation touches no data: the blocks the client had before are as before, up to flushing, and all others are blank. -/
theorem C132_blank (E : Env D) (hE : ∀ l, E.pick l ∉ l) {s0 s : St D} {used0 used : List Nat} {m : Sim} {l : List (Op D × Res D)} (h0 : IdHist E s0 used0)
    (h : SimRun E s0 used0 s m used l) (i : Nat) : (i ∉ used0 → s.blocks i = {}) ∧ ((s.blocks i).refs = (s0.blocks i).refs) ∧
      ((s.blocks i).isInitialized = (s0.blocks i).isInitialized) ∧ ((s0.blocks i).isAcquired = true → s.blocks i = s0.blocks i) :=
  ⟨(simOk_run hE (id_inv hE h0) h).blank i, sim_blocks hE (id_inv hE h0) h i⟩

/-- C132: in the simulation, a block given out is not initialized. -/
theorem C132_fresh (E : Env D) (hE : ∀ l, E.pick l ∉ l) {s0 s s' : St D} {used0 used : List Nat} {m m' : Sim} {l : List (Op D × Res D)} (h0 : IdHist E s0 used0)
    (h : SimRun E s0 used0 s m used l) {n : Nat} (hs : simStep E s m .alloc = some (.id n, s', m')) : m'.isInitialized n = false := by
  have hn := (C132_smallest E hE h0 h hs).1
  have hc := sim_counts (id_inv hE h0) h n hn
  simp only [simStep, Option.some.injEq, Prod.mk.injEq, Res.id.injEq] at hs
  obtain ⟨_, rfl, rfl⟩ := hs
  show decide (0 < (if s.n ≤ n ∧ n < (alloc s).2.n then 0 else m.counts n)) = false
  split
  · rfl
  · rw [hc]; rfl

/-- Blocks 0, 1, 2 exist and 1 is freed; in the simulation 1 and 3 are allocated, 1 is freed and allocated again, then both are freed. -/
def simOps : List (Op Nat) := [.alloc, .acquire 1 true, .release 1 true (fun _ => 0), .alloc, .free 1, .alloc, .free 3, .free 1]
/-- The client has the identifiers 0 and 2 before and after; 1, 3 and 1 are allocated. -/
def simGood (u0 u1 : List Nat) (l1 l2 : List (Op Nat × Res Nat)) : Bool :=
  u0 == [2, 0] && u1 == [2, 0] && l2.filterMap (fun x => idCall x.1) == l1.filterMap (fun x => idCall x.1) && allocated l1 == [1, 3, 1]
example : ∃ s0 u0 s1 m u1 l1 s2 u2 l2, IdHist exE s0 u0 ∧ SimRun exE s0 u0 s1 m u1 l1 ∧ OpRun exE (toLru s1) u1 s2 u2 l2 ∧ simGood u0 u1 l1 l2 = true :=
  thru_ok (q := fun s _ => toLru s) (a := [.alloc, .alloc, .alloc, .free 1]) (b := simOps) (c := simOps) (by decide +kernel)
example : ∃ s0 u0 s1 m u1 l1 s2 u2 l2, IdHist exE s0 u0 ∧ SimRun exE s0 u0 s1 m u1 l1 ∧ OpRun exE (Lfd.start s1 m.seq).st u1 s2 u2 l2 ∧ simGood u0 u1 l1 l2 = true :=
  thru_ok (q := fun s m => (Lfd.start s m.seq).st) (a := [.alloc, .alloc, .alloc, .free 1]) (b := simOps) (c := simOps) (by decide +kernel)
example : ∃ s0 s1 m l1 s' m', IdHist exE s0 [2, 0] ∧ SimRun exE s0 [2, 0] s1 m [2, 0] l1 ∧ simStep exE s1 m .alloc = some (.id 1, s', m') := by
  refine ⟨_, _, _, _, _, _, playOps_hist (m := 2) (z := 1) (mem := fun _ => 0) (disk := fun _ => 0) [.alloc, .alloc, .alloc, .free 1] (x := (_, [2, 0], _)) rfl,
    playSim_run simOps .start (x := (_, _, [2, 0], _)) rfl, rfl⟩

/-- C132 is false if a block from before is freed: block 0 has data, is freed and another block (1) is allocated in the simulation; when
the calls are made again, the client (that has 0 and nothing else) is given 0 for its new block while it still has it, then 0 again,
and the block it is given is not blank. -/
theorem C132_false : ∃ (s0 s1 s2 : St Nat) (m : Sim) (l1 l2 : List (Op Nat × Res Nat)) (used2 : List Nat), IdHist exE s0 [0] ∧ SimRun exE s0 [0] s1 m [1] l1 ∧
    OpRun exE (toLru s1) [0] s2 used2 l2 ∧ l2.filterMap (fun x => idCall x.1) = l1.filterMap (fun x => idCall x.1) ∧
    allocated l1 = [1] ∧ allocated l2 = [0] ∧ (((toLru s1).blocks 0).isInitialized = true) := by
  refine ⟨_, _, _, _, _, _, _, playOps_hist (m := 2) (z := 1) (mem := fun _ => 0) (disk := fun _ => 0) [.alloc, .acquire 0 true, .release 0 true (fun _ => 0)] (x := (_, [0], _)) rfl,
    playSim_run [.alloc, .free 0] .start (x := (_, _, [1], _)) rfl, playOps_run [.alloc, .free 0] .start (x := (_, _, _)) rfl, ?_, ?_, ?_, ?_⟩ <;> decide +kernel

/-- C132 is false: after a simulation that frees block 0 and a repetition that frees it, two allocations give the same identifier. -/
theorem C132_twice_false : ∃ (s0 s1 s2 : St Nat) (m : Sim) (l1 l2 : List (Op Nat × Res Nat)) (used2 : List Nat), IdHist exE s0 [0] ∧ SimRun exE s0 [0] s1 m [] l1 ∧
    OpRun exE (toLru s1) [0] s2 used2 l2 ∧ l2.map (·.1) = [.free 0, .alloc, .alloc] ∧ allocated l2 = [0, 0] := by
  refine ⟨_, _, _, _, _, _, _, playOps_hist (m := 2) (z := 1) (mem := fun _ => 0) (disk := fun _ => 0) [.alloc, .acquire 0 true, .release 0 true (fun _ => 0)] (x := (_, [0], _)) rfl,
    playSim_run [.free 0] .start (x := (_, _, [], _)) rfl, playOps_run [.free 0, .alloc, .alloc] .start (x := (_, _, _)) rfl, rfl, ?_⟩ <;> decide +kernel

end Foxxll.Swap

namespace Foxxll.Ahead
open Foxxll.Swap (SB Env POp Elem Op Res Abs Allowed Expected exE exE_fresh)

variable {D : Type}

/-- C131 with offline_lru_prefetching: whatever the requests under way, the destructor works, gives back the external blocks
of blocks that are not acquired, keeps those of the client, and reports as lost as many internal blocks as there are acquired
blocks. -/
theorem C131_prefetch (E : Env D) (hE : ∀ l, E.pick l ∉ l) {f : Bool} {s : St D} {a : Abs D} {used : List Nat} (h : LifeIds E Known (.ahead f s) a used) :
    ∃ s', destroy s = some ((((List.range s.b.n).filter fun i => decide (0 < a.refs i)).length : Int), s') ∧ (∀ i, a.refs i = 0 → s'.blocks i = {}) ∧
      (∀ e, e ∈ s'.live ↔ a.held e ≠ none ∨ ∃ i, i < s.b.n ∧ 0 < a.refs i ∧ (s'.blocks i).ext = some e) := by
  obtain ⟨hl, hi, hid⟩ := lifeIds_inv hE h
  have hi : Swap.Ids s.b.n s.b.freeIds used := hi
  obtain ⟨b, h1, h2, h3, h4, h5, h6, h7, h8⟩ := end_known E hE hl
  obtain ⟨s', g1, g2, g3⟩ := Swap.destroy_ok h2 h3 (fun hn i => by
    rw [h4, h5] at hn
    have := Swap.ids_length hi
    have hz : used = [] := List.length_eq_zero_iff.1 (by omega)
    have := hid i (by rw [hz]; simp)
    exact h7 i this.1 this.2)
  refine ⟨s', ?_, fun i hi => ?_, fun e => ?_⟩
  · simp only [destroy, h1, Option.bind_some, g1, Swap.acquiredCount, SB.isAcquired, h4, h6]
  · rw [g3 i, h6 i, if_pos hi]
  · rw [h8 e]
    obtain ⟨_, _, m3, _, m5⟩ := g2
    simp only [Swap.St.live, List.mem_append, List.mem_filterMap, List.mem_range, m3, m5, h4]
    constructor
    · rintro (⟨i, hi, he⟩ | k)
      · refine .inr ⟨i, hi, ?_, he⟩
        rw [← h6 i]
        rcases Nat.eq_zero_or_pos (b.blocks i).refs with z | z
        · rw [g3 i, if_pos z] at he; cases he
        · exact z
      · exact .inl k
    · rintro (k | ⟨i, hi, _, he⟩)
      · exact .inr k
      · exact .inl ⟨i, hi, he⟩

/-- Block 0 is being written, block 1 is read ahead into its internal block. -/
example : ∃ f s a u, LifeIds exE Known (.ahead f s) a u ∧ u = [1, 0] ∧ a.data 0 = some 5 ∧ (destroy s).map (fun r => (r.1, r.2.live)) = some (0, []) :=
  okI_life knownB_known (m := 1) exActs (by decide +kernel)
/-- Block 1 is acquired. -/
example : ∃ f s a u, LifeIds exE Known (.ahead f s) a u ∧ u = [1, 0] ∧ a.refs 1 = 1 ∧ (destroy s).map (fun r => (r.1, r.2.live)) = some (1, [1]) :=
  okI_life knownB_known (m := 1) (exActs ++ [acq 1]) (by decide +kernel)

/-- C72 with offline_lru_prefetching, in histories with any number of switches between the algorithms: `allocate_swappable_block` gives the
smallest identifier that is not in use, and the block has no data and is not acquired. -/
theorem C72_prefetch (E : Env D) (hE : ∀ l, E.pick l ∉ l) {Q : Nat → List Elem → Prop} {f : Bool} {s s' : St D} {a : Abs D} {used : List Nat} (h : LifeIds E Q (.ahead f s) a used)
    {n : Nat} (hs : step E s .alloc = some (.id n, s')) : n ∉ used ∧ (∀ j, j < n → j ∈ used) ∧ a.data n = none ∧ a.refs n = 0 ∧ used.Nodup ∧ ∀ id ∈ used, id < s.b.n := by
  obtain ⟨_, hi, hid⟩ := lifeIds_inv hE h
  have hi : Swap.Ids s.b.n s.b.freeIds used := hi
  obtain ⟨_, h2, _⟩ := step_ids hi (by simp [Swap.opId]) hs
  obtain ⟨k, hk, h3, h4⟩ := h2 rfl
  cases hk
  have := hid n h3
  exact ⟨h3, h4, this.2, this.1, (List.nodup_append.1 hi.nd).1, fun id hm => (hi.all id).2 (.inl hm)⟩

/-- Block 0 is freed with prefetching; its identifier is given out again. -/
example : ∃ f s a u, LifeIds exE Known (.ahead f s) a u ∧ u = [1] ∧ (step exE s .alloc).map (·.1) = some (.id 0) :=
  okI_life knownB_known (m := 1) [.call .alloc, .call .alloc, .start (seqOf [(.acquire, 0), (.releaseDirty, 0), (.deinit, 0)]) [], acq 0, rel 0 true, .call (.free 0)] (by decide +kernel)

/-- C132 with offline_lru_prefetching after the simulation (partial: the client has the same identifiers at the end of the simulation as at its
start; `C132_false`), whatever sequence it is started with. -/
theorem C132_prefetch_partial (E : Env D) (hE : ∀ l, E.pick l ∉ l) {s0 s1 : Swap.St D} {t s2 : St D} {used0 used1 used2 : List Nat} {m : Swap.Sim} {l1 l2 : List (Op D × Res D)}
    (h0 : Swap.IdHist E s0 used0) (h1 : Swap.SimRun E s0 used0 s1 m used1 l1) (hu : ∀ id, id ∈ used1 ↔ id ∈ used0) (seq : List Elem) (orc : List (List Disk))
    (ht : start E s1 seq orc = some t) (h2 : CallRun E t used1 s2 used2 l2) (hl : l2.filterMap (fun x => Swap.idCall x.1) = l1.filterMap fun x => Swap.idCall x.1) :
    Swap.allocated l2 = Swap.allocated l1 ∧ ∀ id, id ∈ used2 ↔ id ∈ used0 := by
  have ok := Swap.simOk_run hE (Swap.id_inv hE h0) h1
  have n1 := Swap.sim_names hE (Swap.id_inv hE h0) h1
  obtain ⟨e1, e2⟩ := start_ids2 ht
  have n2 := (callRun_inv (by rw [e1, e2]; exact ok.ids) h2).2
  rw [hl] at n2
  obtain ⟨e3, e4⟩ := Swap.names_unique hu n2 n1
  exact ⟨e3, fun id => (e4 id).trans (hu id)⟩

/-- The calls of the example above with prefetching. -/
example : ∃ s0 u0 s1 m u1 l1 t s2 u2 l2, Swap.IdHist exE s0 u0 ∧ Swap.SimRun exE s0 u0 s1 m u1 l1 ∧ start exE s1 m.seq [] = some t ∧ CallRun exE t u1 s2 u2 l2 ∧ Swap.simGood u0 u1 l1 l2 = true :=
  thruA_ok (a := [.alloc, .alloc, .alloc, .free 1]) (b := Swap.simOps) (c := Swap.simOps) (by decide +kernel)

end Foxxll.Ahead
