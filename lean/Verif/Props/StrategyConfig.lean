import Verif.Proofs.StrategyConfig
/-
C146: allocation strategies made by their default constructors.
-/
namespace Foxxll.StrategyConfig
open Foxxll.Config Foxxll.ConfigQuery

/-- Some random numbers. -/
def plainRand : Rand := { draw := fun _ => 4, shuffle := List.range, mem := fun _ => true }

/-- The property fails: if disks are added before the initialisation, as documented, none of them counts as a regular one, and `random_cyclic_disk` divides by 0. -/
theorem C146_false (debug : Bool) (g m i : Nat) :
    use debug plainEnv none plainRand (Config.run plainEnv (construct g m) [.add { ioImpl := "syscall".toList }, .init none]) .cyclicDisk i = .ub ∧
    (Config.run plainEnv (construct g m) [.add { ioImpl := "syscall".toList }, .init none]).disks.map (·.flash) = [false] := by
  refine ⟨?_, rfl⟩
  have h : (Config.run plainEnv (construct g m) [.add { ioImpl := "syscall".toList }, .init none]) =
      { disks := [{ ioImpl := "syscall".toList }], firstFlash := 0, isInit := true, maxDev := 0 } := rfl
  rw [h]
  show withRange _ (asserted debug _ _) = _
  rw [asserted_done rfl]
  dsimp only [withRange, regularRange]
  exact useRange_empty rfl .cyclicDisk i

/-- If there is no flash disk, `random_cyclic_flash` divides by 0 instead of reporting it. -/
theorem C146_none_false (debug : Bool) (i : Nat) : ∃ c, Config.init plainEnv (construct 0 0) none = (c, false) ∧ use debug plainEnv none plainRand c .cyclicFlash i = .ub := by
  refine ⟨{ disks := (loadDefault (construct 0 0)).disks, firstFlash := 1, isInit := true, maxDev := 0 }, rfl, ?_⟩
  show withRange _ (asserted debug _ _) = _
  rw [asserted_done rfl]
  dsimp only [withRange, flashRange]
  exact useRange_empty rfl .cyclicFlash i

/-- Before the initialisation `random_cyclic_disk` uses `first_flash` before it is set: it may choose a disk that does not exist. -/
theorem C146_uninit_false : use true plainEnv none plainRand (construct 3 0) .cyclicDisk 2 = .assertFail ∧ use false plainEnv none plainRand (construct 3 0) .cyclicDisk 2 = .ub ∧
    use true plainEnv none plainRand (construct 3 0) .randomCyclic 2 = .on 0 := ⟨rfl, by decide, by decide +kernel⟩

/-- If a disk is added behind a flash disk, `random_cyclic_disk` chooses the flash disk. -/
theorem C146_mixed_false : ∃ c, c = Config.run plainEnv (construct 0 0) [.init (some (some ["disk=/a,1,syscall".toList, "flash=/b,1,syscall".toList])), .add { ioImpl := "syscall".toList }] ∧
    use true plainEnv none plainRand c .cyclicDisk 1 = .on 1 ∧ (c.disks.map (·.flash))[1]? = some true := ⟨_, rfl, by decide +kernel, by decide +kernel⟩

/-- What holds: in a configuration that was initialised first and to which disks were added only while there was no flash disk, each strategy chooses an existing disk,
`random_cyclic_disk` a regular one and `random_cyclic_flash` a flash disk, if there is one; with every random number and permutation, and memory for the permutation. -/
theorem C146_partial (debug : Bool) (env : Env) (found : Option (Option (List Str))) {R : Rand} (hR : ∀ n, (R.shuffle n).Perm (List.range n)) (hM : ∀ n, R.mem n = true)
    {c : Cfg} (hc : Orderly env c) (hi : c.isInit = true) (hn : c.disks.length < 2 ^ 32) (i : Nat) :
    (∀ k, k ≠ .cyclicDisk → k ≠ .cyclicFlash → c.disks ≠ [] → ∃ d, use debug env found R c k i = .on d ∧ d < c.disks.length) ∧
    ((∃ d ∈ c.disks, d.flash = false) → ∃ n d, use debug env found R c .cyclicDisk i = .on n ∧ c.disks[n]? = some d ∧ d.flash = false) ∧
    ((∃ d ∈ c.disks, d.flash = true) → ∃ n d, use debug env found R c .cyclicFlash i = .on n ∧ c.disks[n]? = some d ∧ d.flash = true) ∧
    ((∀ d ∈ c.disks, d.flash = true) → use debug env found R c .cyclicDisk i = .ub) ∧
    ((∀ d ∈ c.disks, d.flash = false) → use debug env found R c .cyclicFlash i = .ub) := by
  obtain ⟨p1, p2, p3, p4, p5⟩ := C38_partial hc hn
  have hreg : use debug env found R c .cyclicDisk i = useRange R c .cyclicDisk 0 c.firstFlash i := by
    show withRange _ (asserted debug c _) = _
    rw [asserted_done hi]; rfl
  have hfl : use debug env found R c .cyclicFlash i = useRange R c .cyclicFlash c.firstFlash c.disks.length i := by
    show withRange _ (asserted debug c _) = _
    rw [asserted_done hi]
    show useRange R c .cyclicFlash c.firstFlash (c.disks.length % 2 ^ 32) i = _
    rw [Nat.mod_eq_of_lt hn]
  have hle : c.firstFlash ≤ c.disks.length := by rw [← p4]; exact p3
  have p5 : ∀ i d, c.disks[i]? = some d → (0 ≤ i ∧ i < c.firstFlash ↔ d.flash = false) ∧ (c.firstFlash ≤ i ∧ i < c.disks.length ↔ d.flash = true) := by
    intro i d h
    have := p5 i d h
    rw [p4] at this
    exact this
  refine ⟨?_, ?_, ?_, ?_, ?_⟩
  · intro k h1 h2 hd
    have hu : use debug env found R c k i = useRange R c k 0 c.disks.length i := by
      cases k with
      | cyclicDisk => exact absurd rfl h1
      | cyclicFlash => exact absurd rfl h2
      | _ => show withRange _ (checked env found c fun c => .ok (.num c.disks.length) c) = _; rw [checked_done hi]; rfl
    obtain ⟨d, e1, _, e2⟩ := useRange_in hR (c := c) (b := 0) (List.length_pos_iff.2 hd) (Nat.le_refl _) (hM _) k i
    exact ⟨d, by rw [hu, e1], e2⟩
  · rintro ⟨x, hx, hf⟩
    obtain ⟨j, hj, e⟩ := List.mem_iff_getElem.1 hx
    have hj' := (p5 j x (by rw [List.getElem?_eq_getElem hj, e])).1.2 hf
    obtain ⟨d, e1, _, e2⟩ := useRange_in hR (c := c) (b := 0) (e := c.firstFlash) (by omega) hle (hM _) .cyclicDisk i
    have hd : d < c.disks.length := by omega
    exact ⟨d, c.disks[d], by rw [hreg, e1], List.getElem?_eq_getElem hd, (p5 d _ (List.getElem?_eq_getElem hd)).1.1 ⟨Nat.zero_le _, e2⟩⟩
  · rintro ⟨x, hx, hf⟩
    obtain ⟨j, hj, e⟩ := List.mem_iff_getElem.1 hx
    have hj' := (p5 j x (by rw [List.getElem?_eq_getElem hj, e])).2.2 hf
    obtain ⟨d, e1, e2, e3⟩ := useRange_in hR (c := c) (b := c.firstFlash) (e := c.disks.length) (by omega) (Nat.le_refl _) (hM _) .cyclicFlash i
    exact ⟨d, c.disks[d], by rw [hfl, e1], List.getElem?_eq_getElem e3, (p5 d _ (List.getElem?_eq_getElem e3)).2.1 ⟨e2, e3⟩⟩
  · intro hall
    have : c.firstFlash = 0 := by
      apply Nat.eq_zero_of_not_pos
      intro hpos
      have h0 : 0 < c.disks.length := by omega
      have h1 := (p5 0 _ (List.getElem?_eq_getElem h0)).1.1 ⟨Nat.zero_le _, hpos⟩
      rw [hall _ (List.getElem_mem h0)] at h1; cases h1
    rw [hreg, this]
    exact useRange_empty (hM 0) _ i
  · intro hall
    have : c.firstFlash = c.disks.length := by
      apply Nat.le_antisymm hle
      apply Nat.le_of_not_lt
      intro hlt
      have h1 := (p5 c.firstFlash _ (List.getElem?_eq_getElem hlt)).2.1 ⟨Nat.le_refl _, hlt⟩
      rw [hall _ (List.getElem_mem hlt)] at h1; cases h1
    rw [hfl, this]
    exact useRange_empty (hM 0) _ i

/-- The other strategies need no order: whatever was added and whether or not the configuration was initialised, they initialise it and choose an existing disk, or the
exception of the initialisation comes (or of the allocation of the permutation). -/
theorem C146_any (debug : Bool) (env : Env) (found : Option (Option (List Str))) {R : Rand} (hR : ∀ n, (R.shuffle n).Perm (List.range n)) {c : Cfg}
    (hd : c.isInit = true → c.disks ≠ []) {k : Kind} (h1 : k ≠ .cyclicDisk) (h2 : k ≠ .cyclicFlash) (i : Nat) :
    (use debug env found R c k i = .threw ∧ ((init env c found).2 = true ∨ R.mem (init env c found).1.disks.length = false)) ∨
    ∃ d, use debug env found R c k i = .on d ∧ d < (init env c found).1.disks.length := by
  have hu : use debug env found R c k i = withRange (fun r c => useRange R c k r.1 r.2 i) (query debug env found c .disksNumber) := by
    cases k with
    | cyclicDisk => exact absurd rfl h1
    | cyclicFlash => exact absurd rfl h2
    | _ => rfl
  by_cases hf : (init env c found).2 = true
  · left
    refine ⟨?_, .inl hf⟩
    rw [hu]
    show withRange _ (checked env found c _) = _
    unfold checked
    dsimp only
    rw [if_pos hf]; rfl
  · have hf' : init env c found = ((init env c found).1, false) := Prod.ext rfl (by simpa using hf)
    have hne : (init env c found).1.disks ≠ [] := by
      cases hi : c.isInit with
      | false => exact init_nonempty hf' hi
      | true => rw [init_done hi]; exact hd hi
    have hu : use debug env found R c k i = useRange R (init env c found).1 k 0 (init env c found).1.disks.length i := by
      rw [hu]
      show withRange _ (checked env found c _) = _
      unfold checked
      dsimp only
      rw [if_neg hf]; rfl
    rw [hu]
    have hin := fun hm => useRange_in hR (c := (init env c found).1) (b := 0) (List.length_pos_iff.2 hne) (Nat.le_refl _) hm k i
    by_cases hm : R.mem (init env c found).1.disks.length = true
    · obtain ⟨d, e1, _, e2⟩ := hin hm
      exact .inr ⟨d, e1, e2⟩
    · by_cases hk : k = .randomCyclic
      · subst hk
        left
        refine ⟨?_, .inr (by simpa using hm)⟩
        show (if (init env c found).1.disks.length < 0 then Out.threw else if R.mem ((init env c found).1.disks.length - 0) then _ else .threw) = _
        rw [if_neg (by omega), Nat.sub_zero, if_neg hm]
      · right
        obtain ⟨d, e1, _, e2⟩ := useRange_in (R := { R with mem := fun _ => true }) hR (c := (init env c found).1) (b := 0) (List.length_pos_iff.2 hne) (Nat.le_refl _) rfl k i
        refine ⟨d, ?_, e2⟩
        rw [← e1]
        cases k with
        | cyclicDisk => exact absurd rfl h1
        | cyclicFlash => exact absurd rfl h2
        | randomCyclic => exact absurd rfl hk
        | _ => rfl

/-- Two regular disks and a flash disk from a file. -/
example : ∃ c, Orderly plainEnv c ∧ c.isInit = true ∧ (∃ d ∈ c.disks, d.flash = false) ∧ (∃ d ∈ c.disks, d.flash = true) ∧
    use true plainEnv none plainRand c .cyclicDisk 3 = .on 1 ∧ use true plainEnv none plainRand c .cyclicFlash 3 = .on 2 ∧ use true plainEnv none plainRand c .fullyRandom 3 = .on 1 :=
  ⟨_, .start (g := 9) (m := 9) (some (some ["disk=/a,1,syscall".toList, "flash=/b,1,syscall".toList, "disk=/c,1,mmap".toList])) rfl, rfl,
   by decide +kernel, by decide +kernel, by decide +kernel, by decide +kernel, by decide +kernel⟩

end Foxxll.StrategyConfig
