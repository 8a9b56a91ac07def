import Verif.Model.StrategyConfig
import Verif.Props.Strategy
import Verif.Props.Config
import Verif.Proofs.ConfigQuery
namespace Foxxll.StrategyConfig
open Foxxll.Config Foxxll.ConfigQuery

variable {debug : Bool} {env : Env} {found : Option (Option (List Str))} {R : Rand}

/-- A strategy of a nonempty range of existing disks. -/
theorem useRange_in {c : Cfg} (hR : ∀ n, (R.shuffle n).Perm (List.range n)) {b e : Nat} (h : b < e) (he : e ≤ c.disks.length) (hm : R.mem (e - b) = true) (k : Kind) (i : Nat) :
    ∃ d, useRange R c k b e i = .on d ∧ b ≤ d ∧ d < e := by
  have hp : ∀ {o : Option Nat}, (∃ d, o = some d ∧ b ≤ d ∧ d < e) → ∃ d, place c o = .on d ∧ b ≤ d ∧ d < e := by
    rintro _ ⟨d, rfl, h1, h2⟩
    exact ⟨d, if_pos (by omega), h1, h2⟩
  have hall := Strategy.C11_in_range b e h
  have hc : ∃ d, (if e < b then Out.threw else if R.mem (e - b) then place c (Strategy.randomCyclic b e (R.shuffle (e - b)) i) else .threw) = .on d ∧ b ≤ d ∧ d < e := by
    rw [if_neg (by omega), if_pos hm]
    exact hp (hall.2.2.2.1 _ (hR _) i)
  cases k with
  | striping => exact hp (hall.1 i)
  | fullyRandom => exact hp (hall.2.1 R.draw i)
  | simpleRandom => exact hp (hall.2.2.1 (R.draw 0) i)
  | randomCyclic => exact hc
  | cyclicDisk => exact hc
  | cyclicFlash => exact hc

/-- A strategy of an empty range. -/
theorem useRange_empty {c : Cfg} {b : Nat} (hm : R.mem 0 = true) (k : Kind) (i : Nat) : useRange R c k b b i = .ub := by
  have hc : (if b < b then Out.threw else if R.mem (b - b) then place c (Strategy.randomCyclic b b (R.shuffle (b - b)) i) else .threw) = .ub := by
    rw [if_neg (by omega), if_pos (by rw [Nat.sub_self]; exact hm)]
    simp [Strategy.randomCyclic, Strategy.mod?, place]
  cases k with
  | striping => simp [useRange, Strategy.striping, Strategy.mod?, place]
  | fullyRandom => simp [useRange, Strategy.fullyRandom, Strategy.mod?, place]
  | simpleRandom => simp [useRange, Strategy.simpleRandom, Strategy.mod?, place]
  | randomCyclic => exact hc
  | cyclicDisk => exact hc
  | cyclicFlash => exact hc

/-- A configuration that was initialised has a disk. -/
theorem init_nonempty {c c' : Cfg} (h : init env c found = (c', false)) (hi : c.isInit = false) : c'.disks ≠ [] := by
  unfold init at h
  rw [if_neg (by simp [hi])] at h
  dsimp only at h
  by_cases hd : c.disks = []
  · rw [if_pos hd] at h
    generalize hr : findConfig env { c with firstFlash := 0 } found = r at h
    by_cases hf : r.2 = true
    · rw [if_pos hf] at h; rw [h] at hf; cases hf
    · rw [if_neg hf] at h
      injection h with h _
      rw [← h]
      show r.1.disks ≠ []
      unfold findConfig at hr
      split at hr
      · rw [← hr]; simp [loadDefault, addDisk]
      · rename_i file
        unfold loadFile at hr
        split at hr
        · rw [← hr]; simp [loadDefault, addDisk]
        · split at hr
          · rw [← hr] at hf; simp at hf
          · rename_i ds fl _
            rw [← hr] at hf ⊢
            simpa using hf
  · rw [if_neg hd] at h
    injection h with h _
    rw [← h]
    exact hd

end Foxxll.StrategyConfig
