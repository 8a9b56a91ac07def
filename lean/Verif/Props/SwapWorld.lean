import Verif.Proofs.SwapWorld
import Verif.Proofs.SwapWorldRun
/-
C139: several block schedulers over the same disks.
-/
namespace Foxxll.SwapStore
open Foxxll

variable {k : Queue.Kind} {qid : Nat → Nat} {cfgs : List (Nat × Bool)} {G : Nat → Nat × Cfg} {w : World} {h : Store.Hist} {a : Nat → Swap.Abs (List UInt8)}

/-- **C139** (partial: runs in which no request fails and the block manager has memory): when a call of one of several schedulers returns, its client finds what it
may expect from the calls of this scheduler alone, whatever the others did in between. -/
theorem C139_partial (hG : ∀ i, 0 < (G i).2.raw ∧ (G i).2.dflt.length = (G i).2.raw) (hr : World.Run k qid cfgs G w h a) {i : Nat} {s : Sys} (hi : w.cl i = some s)
    {op : Call} {ans : Ans} (hc : s.cur = some (op, ans)) (ht : s.todo = []) : Swap.Expected (G i).2.dflt (a i) op.toOp (ans.res (G i).2 w.d) :=
  C138_partial (hG i).1 (hG i).2 ((world_inv hG hr).run i s hi) hc ht

theorem G2_ok : ∀ i, 0 < (G2 i).2.raw ∧ (G2 i).2.dflt.length = (G2 i).2.raw := by
  intro i
  match i with
  | 0 => exact ⟨by decide, rfl⟩
  | i + 1 => exact ⟨by show 0 < 2; omega, rfl⟩

/-- Both schedulers wrote their block 0 to disk at the same time, and both have read it again. -/
example : ∃ w h a s t, World.Run .twoQ id [(8, false)] G2 w h a ∧ (∀ i, 0 < (G2 i).2.raw ∧ (G2 i).2.dflt.length = (G2 i).2.raw) ∧
    w.cl 0 = some s ∧ w.cl 1 = some t ∧ s.todo = [] ∧ t.todo = [] ∧ s.cur = some (.acquire 0 false, .int 0) ∧ t.cur = some (.acquire 0 false, .int 0) ∧
    (Ans.int 0).res (G2 0).2 w.d = .data [1, 2] ∧ (Ans.int 0).res (G2 1).2 w.d = .data [5, 6] ∧ (a 0).data 0 = some [1, 2] ∧ (a 1).data 0 = some [5, 6] := by
  obtain ⟨w, h, a, hr, hp⟩ := wrun_run wokC_run
  unfold wokC at hp
  split at hp
  · rename_i s t h1 h2
    simp only [Bool.and_eq_true, beq_iff_eq] at hp
    obtain ⟨⟨⟨⟨⟨⟨⟨⟨⟨g1, g2⟩, g3⟩, g4⟩, g5⟩, g6⟩, g7⟩, g8⟩, _⟩, _⟩ := hp
    refine ⟨w, h, a, s, t, hr, G2_ok, h1, h2, g1, g2, ?_, ?_, congrArg Swap.Res.data g5, congrArg Swap.Res.data g6, g7, g8⟩
    · split at g3
      · assumption
      · cases g3
    · split at g4
      · assumption
      · cases g4
  · cases hp

/-- **C139 is false** when the disks are full: scheduler 1 has made the same calls in both runs, alone in the first, with scheduler 0 in the second.
Its next command, which allocates an external block, works in the first; in the second it throws, since scheduler 0 has got the only block of the disk.  No
request has failed. -/
theorem C139_false : ∃ (cfgs : List (Nat × Bool)) (G : Nat → Nat × Cfg) (w w' : World) (h h' : Store.Hist) (a a' : Nat → Swap.Abs (List UInt8)) (s s' t : Sys) (r o : Nat)
    (f : Nat → Nat), World.Run .twoQ id cfgs G w h a ∧ World.Run .twoQ id cfgs G w' h' a' ∧ w.cl 0 = none ∧ w.cl 1 = some s ∧ w'.cl 1 = some s' ∧ s.cur = s'.cur ∧ s.todo = s'.todo ∧
    w.d.failed = [] ∧ w'.d.failed = [] ∧ Sys.step .twoQ id (G 1).2 { s with d := w.d } (.cmd r f o) = .ok t ∧
    Sys.step .twoQ id (G 1).2 { s' with d := w'.d } (.cmd r f o) = .throws := by
  obtain ⟨w, h, a, hr, hp⟩ := wrun_of wokN_alone
  obtain ⟨w', h', a', hr', hp'⟩ := wrun_of wokN_both
  obtain ⟨s, a1, a2, a3, a4, a5, a6⟩ := wokN_of hp
  obtain ⟨s', b1, b2, b3, b4, b5, b6⟩ := wokN_of hp'
  have e : ∃ t, Sys.step .twoQ id (G2 1).2 { s with d := w.d } (cm 82) = .ok t := by
    split at a5
    · cases a5
    · rename_i t ht; exact ⟨t, ht⟩
    · cases a5
  have e' : Sys.step .twoQ id (G2 1).2 { s' with d := w'.d } (cm 82) = .throws := by
    split at b5
    · assumption
    · cases b5
    · cases b5
  obtain ⟨t, ht⟩ := e
  exact ⟨_, G2, w, w', h, h', a, a', s, s', t, 82, 0, fun _ => 0, hr, hr', a6 rfl, a1, b1, a3.trans b3.symm, a2.trans b2.symm, a4, b4, ht, e'⟩

/-- For one scheduler, the others are clients of the store that keep the rules: what holds for a scheduler with such clients (C138) holds for it. -/
theorem C139_run (hG : ∀ i, 0 < (G i).2.raw ∧ (G i).2.dflt.length = (G i).2.raw) (hr : World.Run k qid cfgs G w h a) {i : Nat} {s : Sys} (hi : w.cl i = some s) :
    Run k qid cfgs (G i).1 (G i).2 { s with d := w.d } h (a i) := (world_inv hG hr).run i s hi

/-- The runs of both schedulers of the example. -/
example : ∃ w h a s t, World.Run .twoQ id [(8, false)] G2 w h a ∧ w.cl 0 = some s ∧ w.cl 1 = some t ∧ Run .twoQ id [(8, false)] 2 (G2 0).2 { s with d := w.d } h (a 0) ∧
    Run .twoQ id [(8, false)] 2 (G2 1).2 { t with d := w.d } h (a 1) ∧ s.cur ≠ none ∧ t.cur ≠ none := by
  obtain ⟨w, h, a, hr, hp⟩ := wrun_run wokC_run
  unfold wokC at hp
  split at hp
  · rename_i s t h1 h2
    simp only [Bool.and_eq_true, beq_iff_eq] at hp
    obtain ⟨⟨⟨⟨⟨⟨⟨⟨⟨g1, g2⟩, g3⟩, g4⟩, g5⟩, g6⟩, g7⟩, g8⟩, _⟩, _⟩ := hp
    refine ⟨w, h, a, s, t, hr, h1, h2, C139_run G2_ok hr h1, C139_run G2_ok hr h2, ?_, ?_⟩
    · intro e; rw [e] at g3; cases g3
    · intro e; rw [e] at g4; cases g4
  · cases hp

/-- Schedulers share neither blocks nor buffers; and the next step of one leaves alone blocks and buffers of the others. -/
theorem C139_apart (hG : ∀ i, 0 < (G i).2.raw ∧ (G i).2.dflt.length = (G i).2.raw) (hr : World.Run k qid cfgs G w h a) {i j : Nat} {s t : Sys} (hij : i ≠ j)
    (hi : w.cl i = some s) (hj : w.cl j = some t) :
    (∀ e ∈ s.own, ∀ e' ∈ t.own, s.bid e ≠ t.bid e' ∧ s.bid e ∈ w.d.m.live) ∧ Apart (G i) (G j) ∧
    ∀ r f o op, w.d.reqs r = none → f o < w.d.m.mgr.disks.length → w.store G (.go i (.cmd r f o)) = some op →
      Store.Allowed k qid w.d op ∧ E2E.Foreign (t.own.map t.bid) (G j).2.base ((G j).2.base + (G j).2.count (G j).1) w.d op := by
  have I := world_inv hG hr
  have hne : ∀ {x : Nat} {u : Sys}, w.cl x = some u → w.cl x ≠ none := fun h => by rw [h]; simp
  refine ⟨fun e he e' he' => ⟨I.own i j s t hij hi hj e he e' he', own_live (hG i).1 (hG i).2 (I.run i s hi) he⟩, I.apart i j hij (hne hi) (hne hj), ?_⟩
  intro r f o op h1 h2 h3
  have h3 : Sys.store (G i).2 { s with d := w.d } (.cmd r f o) = some op := by simpa [World.store, hi] using h3
  obtain ⟨c1, c2⟩ := C138_rules (hG i).1 (hG i).2 (I.run i s hi) h1 h2 h3
  refine ⟨c1, inside_foreign (I.apart i j hij (hne hi) (hne hj)) ?_ c2⟩
  intro b hb hc
  obtain ⟨e, g1, rfl⟩ := List.mem_map.1 hb
  obtain ⟨e', g2, g3⟩ := List.mem_map.1 hc
  exact I.own i j s t hij hi hj e g1 e' g2 g3.symm

/-- Both have allocated a block, and the writes of both are in the queue. -/
example : ∃ w h a s t, World.Run .twoQ id [(8, false)] G2 w h a ∧ w.cl 0 = some s ∧ w.cl 1 = some t ∧ s.own = [1] ∧ t.own = [1] ∧
    s.bid 1 = Store.blk 0 2 ∧ t.bid 1 = Store.blk 0 0 ∧ over id w.d 1 = false ∧ over id w.d 2 = false := by
  obtain ⟨w, h, a, hr, hp⟩ := wrun_run wokB_run
  unfold wokB at hp
  split at hp
  · rename_i s t h1 h2
    simp only [Bool.and_eq_true, beq_iff_eq, Bool.not_eq_true'] at hp
    obtain ⟨⟨⟨⟨⟨⟨⟨g1, g2⟩, g3⟩, g4⟩, g5⟩, g6⟩, g7⟩, g8⟩ := hp
    exact ⟨w, h, a, s, t, hr, h1, h2, g3, g4, g5, g6, g7, g8⟩
  · cases hp

/-- A call of one scheduler comes to its end although the others stand still: with steps of this call and of the threads inside of the queues only, it
reaches its return or an exception, and the other schedulers are as before. -/
theorem C139_end (hG : ∀ i, 0 < (G i).2.raw ∧ (G i).2.dflt.length = (G i).2.raw) (hcf : cfgs ≠ []) (os : Nat → Files.Sys) (hr : World.Run k qid cfgs G w h a)
    {i : Nat} {s : Sys} (hi : w.cl i = some s) :
    ∃ w' h' t, World.Leads k qid G a i os w h w' h' ∧ World.Run k qid cfgs G w' h' a ∧ (∀ j, j ≠ i → w'.cl j = w.cl j) ∧ w'.cl i = some t ∧ t.cur = s.cur ∧ t.c = s.c ∧
      (t.todo = [] ∨ ∃ r f o, w'.Fair k qid G h' a (.go i (.cmd r f o)) ∧ Sys.step k qid (G i).2 { t with d := w'.d } (.cmd r f o) = .throws) := by
  obtain ⟨t, h', g1, g2, g3, g4⟩ := C138_end (hG i).1 (hG i).2 hcf os ((world_inv hG hr).run i s hi)
  obtain ⟨w', t0, e1, e2, e3, e4⟩ := leads_world g1 hi rfl
  subst e3
  refine ⟨w', h', t0, e1, e1.run hr, e4, e2, g2, g3, ?_⟩
  rcases g4 with g | ⟨r, f, o, f1, f2⟩
  · exact .inl g
  · refine .inr ⟨r, f, o, ⟨?_, (fun op e => by cases e), (fun b v e => by cases e)⟩, f2⟩
    intro u hu
    have e : t0 = u := Option.some.inj (e2.symm.trans hu)
    subst e
    exact f1

/-- Both wait for their writes. -/
example : ∃ w h a s t, World.Run .twoQ id [(8, false)] G2 w h a ∧ w.cl 0 = some s ∧ w.cl 1 = some t ∧ s.todo = [.wait, .fill 0] ∧ t.todo = [.wait, .fill 0] ∧
    [(8, false)] ≠ ([] : List (Nat × Bool)) := by
  obtain ⟨w, h, a, hr, hp⟩ := wrun_run wokB_run
  unfold wokB at hp
  split at hp
  · rename_i s t h1 h2
    simp only [Bool.and_eq_true, beq_iff_eq, Bool.not_eq_true'] at hp
    obtain ⟨⟨⟨⟨⟨⟨⟨g1, g2⟩, g3⟩, g4⟩, g5⟩, g6⟩, g7⟩, g8⟩ := hp
    exact ⟨w, h, a, s, t, hr, h1, h2, g1, g2, by simp⟩
  · cases hp

end Foxxll.SwapStore
