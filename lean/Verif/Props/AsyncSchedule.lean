/-
Properties C13 and C14 of the prefetch schedule.
-/
import Verif.Proofs.AsyncSchedule

namespace Foxxll.Sched

/-- The disks of the consumption sequence are admissible for `D` disks. -/
def DisksOk (disks : List (Option Nat)) (D : Nat) : Prop := ∀ d, some d ∈ disks → d ≤ D

/-- **C13**: with `m > 0` buffers, for every admissible disk assignment, every resolution of ties
in the event queue and every initial content of the uninitialised array, the schedule is computed
(no assert fails, the simulation ends) and lists every block index exactly once. -/
theorem C13_permutation (disks : List (Option Nat)) (m D : Nat) (hm : 0 < m) (hD : DisksOk disks D)
    (busy0 : Nat → Bool) (choice : Nat → Nat) :
    ∃ out, computeSchedule disks m D busy0 choice = some out ∧ out.Perm (List.range disks.length) := by
  rcases compute_cases (allOk_of hD) m hm busy0 choice with ⟨_, h⟩ | ⟨log, hg, h⟩
  · exact ⟨_, h, List.Perm.refl _⟩
  · exact ⟨_, h, sorted_perm hg⟩

/-- **C14**: fewer than `m` later-consumed blocks are fetched before block `k` … -/
theorem C14_few_later_before (disks : List (Option Nat)) (m D : Nat) (hm : 0 < m) (hD : DisksOk disks D)
    (busy0 : Nat → Bool) (choice : Nat → Nat) (out : List Nat)
    (h : computeSchedule disks m D busy0 choice = some out)
    (p k : Nat) (hp : out[p]? = some k) :
    ((out.take p).filter (fun j => k < j)).length < m := by
  rcases compute_cases (allOk_of hD) m hm busy0 choice with ⟨_, h'⟩ | ⟨log, hg, h'⟩
  · rw [h', Option.some.injEq] at h
    subst h
    rw [range_take_filter _ _ _ hp]
    simpa using hm
  · rw [h', Option.some.injEq] at h
    subst h
    exact take_window hg p k hp

/-- … hence it is among the first `k + m` fetched ones. -/
theorem C14_position (disks : List (Option Nat)) (m D : Nat) (hm : 0 < m) (hD : DisksOk disks D)
    (busy0 : Nat → Bool) (choice : Nat → Nat) (out : List Nat)
    (h : computeSchedule disks m D busy0 choice = some out)
    (p k : Nat) (hp : out[p]? = some k) : p < k + m := by
  obtain ⟨out', h', hperm⟩ := C13_permutation disks m D hm hD busy0 choice
  rw [h, Option.some.injEq] at h'
  subst h'
  have h1 := position_le hperm p k hp
  have h2 := C14_few_later_before disks m D hm hD busy0 choice out h p k hp
  omega

/-- Seven blocks on two disks with four buffers: the schedule is not the identity. -/
example : computeSchedule [some 0, some 0, some 0, some 1, some 1, some 1, some 1] 4 2 (fun _ => true) (fun _ => 1)
    = some [0, 3, 1, 4, 2, 5, 6] := by
  have h : simulate [some 0, some 0, some 0, some 1, some 1, some 1, some 1] 4 2 (fun _ => true) (fun _ => 1)
      = .done [(6, 1), (5, 2), (2, 2), (4, 3), (1, 3), (0, 4), (3, 4)] := by decide +kernel
  unfold computeSchedule
  rw [h]
  simp [writeOrder, List.range_succ, List.mergeSort, List.MergeSort.Internal.splitInTwo]

example : DisksOk [some 0, some 0, some 0, some 1, some 1, some 1, none] 2 := by
  intro d hd; simp at hd; omega

/-- The hypothesis `0 < m` is needed: without buffers the final `assert(i == 0)` fails. -/
example : simulate [some 0, some 0, some 1] 0 2 (fun _ => false) (fun _ => 0) = .fail := by decide +kernel

end Foxxll.Sched
