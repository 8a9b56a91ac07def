/-
Property C101: the prefetch schedule is optimal.

`C101` in full: for every sequence of blocks, the schedule of `compute_prefetch_schedule` lets the consumer
finish within `n` steps if any order of the reads does.
-/
import Verif.Proofs.StepsOpt
import Verif.Props.AsyncSchedule

namespace Foxxll.Sched

/-- **C101 fails**: seven blocks on three disks, three buffers.  The computed schedule takes four steps, another
one three: the simulation gives up a buffer whenever the disk of the next block is free and has blocks queued
(async_schedule.cpp:134-140). -/
theorem C101_false : ∃ (disks : List (Option Nat)) (m D : Nat) (busy0 : Nat → Bool) (choice : Nat → Nat) (out order : List Nat) (n : Nat),
    0 < m ∧ DisksOk disks D ∧ D < disks.length ∧ computeSchedule disks m D busy0 choice = some out ∧
    order.Perm (List.range disks.length) ∧ Finishes (diskOf disks D) order m n ∧ ¬ Finishes (diskOf disks D) out m n := by
  refine ⟨[some 0, some 1, some 0, some 2, some 0, some 2, some 2], 3, 3, fun _ => false, fun _ => 0, [0, 1, 2, 3, 5, 4, 6], [0, 1, 3, 2, 5, 4, 6], 3,
    by decide, ?_, by decide, ?_, by decide, by decide +kernel, by decide +kernel⟩
  · intro d hd; simp at hd; omega
  · have h : simulate [some 0, some 1, some 0, some 2, some 0, some 2, some 2] 3 3 (fun _ => false) (fun _ => 0)
        = .done [(4, 1), (6, 1), (5, 2), (2, 3), (3, 3), (1, 4), (0, 4)] := by decide +kernel
    unfold computeSchedule
    rw [h]
    simp [writeOrder, List.range_succ, List.mergeSort, List.MergeSort.Internal.splitInTwo]

/-- **C101 fails** as well where the sequence is not longer than the number of disks and the schedule is the sequence
itself (async_schedule.cpp:183-189): five blocks on three of five disks, three buffers. -/
theorem C101_false_short (busy0 : Nat → Bool) (choice : Nat → Nat) :
    ∃ out order : List Nat, computeSchedule [some 0, some 1, some 0, some 2, some 2] 3 5 busy0 choice = some out ∧
      order.Perm (List.range 5) ∧ Finishes (diskOf [some 0, some 1, some 0, some 2, some 2] 5) order 3 2 ∧
      ¬ Finishes (diskOf [some 0, some 1, some 0, some 2, some 2] 5) out 3 2 :=
  ⟨[0, 1, 2, 3, 4], [0, 1, 3, 2, 4], rfl, by decide, by decide +kernel, by decide +kernel⟩

/-- **C101**, what is possible: some order of the reads lets the consumer finish within `n` steps if and only if queued
writing of the reversed sequence is through after `n` steps (Hutchinson, Sanders and Vitter's duality). -/
theorem C101_optimum (disk : Nat → Nat) (L nd m n : Nat) (hd : ∀ i, i < L → disk i < nd) :
    (∃ order : List Nat, order.Perm (List.range L) ∧ Finishes disk order m n) ↔ ∀ d, lastOn disk L d L ≤ queued disk L nd m n d := by
  constructor
  · rintro ⟨order, hp, hf⟩
    exact finishes_lower hd hp hf
  · exact best_order hd

/-- **C101**, a bound: no order makes the consumer finish earlier than a disk has read its blocks. -/
theorem C101_load (disk : Nat → Nat) (L m n : Nat) (order : List Nat) (hp : order.Perm (List.range L)) (hf : Finishes disk order m n) (d : Nat) :
    ((List.range L).filter fun i => disk i == d).length ≤ n := by
  obtain ⟨nd, hd⟩ : ∃ nd, ∀ i, i < L → disk i < nd := by
    refine ⟨((List.range L).map disk).foldl max 0 + 1, fun i hi => ?_⟩
    have : ∀ (l : List Nat) (a : Nat), a ≤ l.foldl max a ∧ ∀ x ∈ l, x ≤ l.foldl max a := by
      intro l
      induction l with
      | nil => intro a; simp
      | cons y l ih =>
        intro a
        obtain ⟨h1, h2⟩ := ih (max a y)
        rw [List.foldl_cons]
        refine ⟨by omega, ?_⟩
        intro x hx
        rcases List.mem_cons.1 hx with rfl | hx
        · omega
        · exact h2 x hx
    have := (this ((List.range L).map disk) 0).2 (disk i) (List.mem_map.2 ⟨i, List.mem_range.2 hi, rfl⟩)
    omega
  have h1 := finishes_lower hd hp hf d
  have h2 : ∀ n, queued disk L nd m n d ≤ n := by
    intro n
    induction n with
    | zero => exact Nat.le_refl _
    | succ n ih => rw [queued]; omega
  have h3 : lastOn disk L d L = ((List.range L).filter fun i => disk i == d).length := by
    unfold lastOn
    rw [List.countP_eq_length_filter]
    congr 1
    apply List.filter_congr
    intro i _
    by_cases h : disk i = d
    · simp [h]
    · simp [h]
  have := h2 n
  omega

/-- **C101**, the simulation is a promise: the schedule lets the consumer finish within the simulated number of steps, which
is at most the number of blocks. -/
theorem C101_steps (disks : List (Option Nat)) (m D : Nat) (hm : 0 < m) (hD : DisksOk disks D) (hL : D < disks.length)
    (busy0 : Nat → Bool) (choice : Nat → Nat) :
    ∃ log out T, simulate disks m D busy0 choice = .done log ∧ computeSchedule disks m D busy0 choice = some out ∧
      (∀ p ∈ log, p.2 ≤ T) ∧ (∃ p ∈ log, p.2 = T) ∧ T ≤ disks.length ∧ Finishes (diskOf disks D) out m T := by
  obtain ⟨s, h1, h2, h3, h4, h5, _⟩ := sim_end (k := m) (allOk_of hD) hm (by omega) busy0 choice
  have hlen : s.log.length = disks.length := by
    have := h2.perm.length_eq
    rwa [List.length_map, List.length_range] at this
  refine ⟨s.log, (sorted disks.length s.log).map (·.1), s.oldtime, h1, ?_, h3.logt.2, ?_, ?_, ?_⟩
  · simp only [computeSchedule, h1, if_neg (show ¬ disks.length ≤ D by omega)]; rfl
  · by_cases h0 : s.oldtime = 0
    · obtain ⟨p, hp⟩ := List.exists_mem_of_length_pos (show 0 < s.log.length by omega)
      exact ⟨p, hp, by have := h3.logt.2 p hp; omega⟩
    · exact h4.all _ (by omega) (Nat.le_refl _)
  · have := nodup_countP' (l := (List.range s.oldtime).map (· + 1)) (k := s.log.map (·.2)) (p := fun _ => true)
      (by
        rw [List.nodup_iff_pairwise_ne, List.pairwise_map]
        exact List.Pairwise.imp (fun h => by omega) (List.nodup_iff_pairwise_ne.1 List.nodup_range))
      (by
        intro x hx
        obtain ⟨y, hy, rfl⟩ := List.mem_map.1 hx
        obtain ⟨p, hp, e⟩ := h4.all (y + 1) (by omega) (List.mem_range.1 hy)
        exact ⟨List.mem_map.2 ⟨p, hp, e⟩, rfl⟩)
    simp only [List.length_map, List.length_range, List.countP_true] at this
    omega
  · rw [← dk_diskOf hD]
    exact sim_finishes h3 h4 h2

/-- **C101**, partial: as long as the simulation keeps `k` of its `m` buffers in use, the schedule is as good as any
order of reads with `k` buffers; for `k = m` it is optimal.  (Missing: in general the simulation loses buffers, `C101_false`.) -/
theorem C101_partial (disks : List (Option Nat)) (m D k : Nat) (hm : 0 < m) (hD : DisksOk disks D) (hL : D < disks.length)
    (busy0 : Nat → Bool) (choice : Nat → Nat) (hk : Keeps disks m D busy0 choice k) (out : List Nat)
    (hout : computeSchedule disks m D busy0 choice = some out) (order : List Nat) (hp : order.Perm (List.range disks.length))
    (n : Nat) (hf : Finishes (diskOf disks D) order k n) : Finishes (diskOf disks D) out m n := by
  obtain ⟨s, h1, h2, h3, h4, h5, h6⟩ := sim_end (k := k) (allOk_of hD) hm (by omega) busy0 choice
  have e : computeSchedule disks m D busy0 choice = some ((sorted disks.length s.log).map (·.1)) := by
    simp only [computeSchedule, h1, if_neg (show ¬ disks.length ≤ D by omega)]; rfl
  rw [hout] at e
  injection e with e
  subst e
  rw [← dk_diskOf hD] at hf ⊢
  have hT := keeps_best (allOk_of hD) h4 h2 (h6 hk) hp hf
  intro b hb
  exact fetched_mono hT _ (sim_finishes h3 h4 h2 b hb)

/-- **C101** with as many buffers as blocks: the schedule is optimal. -/
theorem C101_all_buffered (disks : List (Option Nat)) (m D : Nat) (hm : disks.length ≤ m) (hD : DisksOk disks D) (hL : D < disks.length)
    (busy0 : Nat → Bool) (choice : Nat → Nat) (out : List Nat) (hout : computeSchedule disks m D busy0 choice = some out)
    (order : List Nat) (hp : order.Perm (List.range disks.length)) (n : Nat) (hf : Finishes (diskOf disks D) order m n) :
    Finishes (diskOf disks D) out m n := by
  refine C101_partial disks m D m (by omega) hD hL busy0 choice ?_ out hout order hp n hf
  intro s hs
  left
  exact visited_zero (allOk_of hD) hm hs

/-- **C101** on a single disk: every schedule that is computed is optimal. -/
theorem C101_one_disk (disks : List (Option Nat)) (m D : Nat) (hm : 0 < m) (hD : DisksOk disks D) (hL : D < disks.length)
    (d : Nat) (hd : ∀ i, i < disks.length → diskOf disks D i = d) (busy0 : Nat → Bool) (choice : Nat → Nat) (out : List Nat)
    (hout : computeSchedule disks m D busy0 choice = some out) (order : List Nat) (hp : order.Perm (List.range disks.length))
    (n k : Nat) (hf : Finishes (diskOf disks D) order k n) : Finishes (diskOf disks D) out m n := by
  obtain ⟨log, out', T, _, h2, _, _, h3, h4⟩ := C101_steps disks m D hm hD hL busy0 choice
  rw [hout] at h2
  injection h2 with h2
  subst h2
  have h5 := C101_load _ _ _ _ order hp hf d
  have h6 : ((List.range disks.length).filter fun i => diskOf disks D i == d) = List.range disks.length := by
    rw [List.filter_eq_self]
    intro i hi
    simp [hd i (List.mem_range.1 hi)]
  rw [h6, List.length_range] at h5
  intro b hb
  exact fetched_mono (Nat.le_trans h3 h5) _ (h4 b hb)

/-! ### Cases meeting the hypotheses -/

/-- Five blocks on three disks with three buffers: all buffers are kept, the schedule is not the sequence itself … -/
example : DisksOk [some 0, some 1, some 0, some 2, some 2] 3 ∧ Keeps [some 0, some 1, some 0, some 2, some 2] 3 3 (fun _ => false) (fun _ => 0) 3 := by
  have h : DisksOk [some 0, some 1, some 0, some 2, some 2] 3 := by intro d hd; simp at hd; omega
  exact ⟨h, keeps_of (allOk_of h) (by decide) (by decide +kernel)⟩

example : computeSchedule [some 0, some 1, some 0, some 2, some 2] 3 3 (fun _ => false) (fun _ => 0) = some [0, 1, 3, 2, 4] := by
  have h : simulate [some 0, some 1, some 0, some 2, some 2] 3 3 (fun _ => false) (fun _ => 0)
      = .done [(2, 1), (4, 1), (1, 2), (0, 2), (3, 2)] := by decide +kernel
  unfold computeSchedule
  rw [h]
  simp [writeOrder, List.range_succ, List.mergeSort, List.MergeSort.Internal.splitInTwo]

/-- … and it takes two steps instead of three. -/
example : Finishes (diskOf [some 0, some 1, some 0, some 2, some 2] 3) [0, 1, 3, 2, 4] 3 2 ∧
    ¬ Finishes (diskOf [some 0, some 1, some 0, some 2, some 2] 3) [0, 1, 2, 3, 4] 3 2 := by decide +kernel

/-- With four buffers, two of which are kept. -/
example : Keeps [some 0, some 0, some 1, some 1, some 0, some 1, some 0, some 1] 4 2 (fun _ => false) (fun _ => 0) 2 := by
  have h : DisksOk [some 0, some 0, some 1, some 1, some 0, some 1, some 0, some 1] 2 := by intro d hd; simp at hd; omega
  exact keeps_of (allOk_of h) (by decide) (by decide +kernel)

/-- Queued writing is through after three steps, not after two (`C101_optimum`, with the blocks of `C101_false`). -/
example : (∀ d, d < 3 → lastOn (diskOf [some 0, some 1, some 0, some 2, some 0, some 2, some 2] 3) 7 d 7 ≤
      queued (diskOf [some 0, some 1, some 0, some 2, some 0, some 2, some 2] 3) 7 3 3 3 d) ∧
    ¬ (∀ d, d < 3 → lastOn (diskOf [some 0, some 1, some 0, some 2, some 0, some 2, some 2] 3) 7 d 7 ≤
      queued (diskOf [some 0, some 1, some 0, some 2, some 0, some 2, some 2] 3) 7 3 3 2 d) := by decide +kernel

/-- Four blocks on one disk take four steps. -/
example : Finishes (diskOf [some 1, some 1, some 1, some 1] 2) [0, 1, 2, 3] 2 4 ∧ ∀ i, i < 4 → diskOf [some 1, some 1, some 1, some 1] 2 i = 1 := by decide +kernel

end Foxxll.Sched
