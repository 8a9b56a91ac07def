import Verif.Model.StreamOpen
import Verif.Spec.Config
import Verif.Spec.Streams
import Verif.Proofs.Prefetcher
/-
Helper lemmas for property C128.
-/
namespace Foxxll.StreamOpen

variable {α : Type}

open Foxxll.Config (Env Str Cfg Ids)
open Foxxll.Stream (order expected)

theorem findConfig_disks {env : Env} {c c' : Cfg} {found : Option (Option (List Str))} (h : Config.findConfig env c found = (c', false)) :
    c'.disks ≠ [] := by
  unfold Config.findConfig at h
  split at h
  · cases h
    simp [Config.loadDefault, Config.addDisk]
  · unfold Config.loadFile at h
    split at h
    · cases h
      simp [Config.loadDefault, Config.addDisk]
    · split at h
      · cases h
      · rename_i disks fl _
        simp only [Prod.mk.injEq] at h
        obtain ⟨h1, h2⟩ := h
        subst h1
        intro e
        simp only at e
        rw [e] at h2
        cases h2

theorem init_spec {env : Env} {c c' : Cfg} {found : Option (Option (List Str))} (h0 : c.isInit = false) (h : Config.init env c found = (c', false)) :
    c'.isInit = true ∧ c'.disks ≠ [] := by
  unfold Config.init at h
  simp only [h0, Bool.false_eq_true, if_false] at h
  by_cases hd : c.disks = []
  · simp only [hd, if_true] at h
    cases hf : Config.findConfig env { disks := [], firstFlash := 0, isInit := false, maxDev := c.maxDev } found with
    | mk x b =>
      simp only [hf] at h
      cases b
      · simp only [Bool.false_eq_true, if_false, Prod.mk.injEq, and_true] at h
        subst h
        exact ⟨rfl, findConfig_disks (c' := x) hf⟩
      · simp at h
  · simp only [hd, if_false, Bool.false_eq_true, Prod.mk.injEq, and_true] at h
    subst h
    exact ⟨rfl, hd⟩

theorem ids_spec {env : Env} {c : Cfg} {used : List Nat} (h : Ids env c used) : c.isInit = true ∧ c.disks ≠ [] := by
  induction h with
  | start found h0 hi => exact init_spec h0 hi
  | @create c used wanted _ _ ih =>
    unfold Config.assignId Config.nextDeviceId Config.updateMaxDeviceId
    split
    · exact ih
    · simp only
      split <;> exact ih

theorem order_length {β : Type} (rev : Bool) (l : List β) : (Stream.order rev l).length = l.length := by
  cases rev <;> simp [Stream.order]

theorem order_mem {β : Type} (rev : Bool) (l : List β) (x : β) : x ∈ Stream.order rev l ↔ x ∈ l := by
  cases rev <;> simp [Stream.order]

theorem range_getD {β : Type} (f : β → List α) : ∀ (l : List β),
    (List.range l.length).flatMap (fun j => ((l[j]?).map f).getD []) = l.flatMap f
  | [] => rfl
  | a :: l => by
    have ih := range_getD f l
    rw [List.length_cons, List.range_succ_eq_map, List.flatMap_cons, List.flatMap_map, List.flatMap_cons]
    simp only [List.getElem?_cons_zero, Option.map_some, Option.getD_some, List.getElem?_cons_succ]
    rw [ih]

/-- The arguments of the prefetcher. -/
def pcfg (rev : Bool) (bs : List (Block α)) (seq : List Nat) (m : Nat) : Prefetch.Cfg (List α) :=
  { seqLength := (order rev bs).length, seq := seq, bufSize := m, disk := fun (j : Nat) => ((order rev bs)[j]?.map (·.data)).getD [] }

theorem expected_eq (rev : Bool) (bs : List (Block α)) (seq : List Nat) (m : Nat) :
    expected rev (pcfg rev bs seq m) = order rev (bs.flatMap (·.data)) := by
  unfold expected pcfg
  cases rev
  · simp only [order, Bool.false_eq_true, if_false]
    exact range_getD _ bs
  · simp only [order, if_true]
    have := range_getD (fun b : Block α => b.data.reverse) bs.reverse
    have e : ∀ j : Nat, ((bs.reverse[j]?).map (fun b : Block α => b.data)).getD [] = (((bs.reverse[j]?).map (fun b : Block α => b.data.reverse)).getD []).reverse := by
      intro j
      cases bs.reverse[j]? <;> simp
    simp only [e, List.reverse_reverse]
    rw [this, List.reverse_flatMap]
    rfl

theorem initLoop_keep {c : Prefetch.Cfg (List α)} : ∀ (k i : Nat) (s s' : Prefetch.St (List α)), Prefetch.initLoop c k i s = .ok s' →
    s'.waiting = s.waiting ∧ s'.nextconsume = s.nextconsume
  | 0, _, s, s', h => by cases h; exact ⟨rfl, rfl⟩
  | k + 1, i, s, s', h => by
    unfold Prefetch.initLoop at h
    split at h
    · cases h
    · split at h
      · obtain ⟨h1, h2⟩ := initLoop_keep k _ _ _ h
        exact ⟨h1, h2⟩
      · cases h

theorem iInit_spec {rev : Bool} {size blk : Nat} {c : Prefetch.Cfg (List α)} (hg : Prefetch.Good c) : ∃ s, Stream.iInit rev size c blk = .ok s := by
  obtain ⟨s, hs, _⟩ := Prefetch.init_spec hg
  unfold Stream.iInit
  rw [hs]
  simp only
  have : ∃ s', Prefetch.step c s .pull = .ok s' := by
    unfold Prefetch.init at hs
    rw [if_pos ⟨hg.pos, hg.bufs⟩] at hs
    obtain ⟨h1, h2⟩ := initLoop_keep _ _ _ _ hs
    have hp := hg.pos
    simp only at h1 h2
    simp only [Prefetch.step, h1, h2, Option.isSome_none, Bool.false_eq_true, if_false, hp, if_true]
    exact ⟨_, rfl⟩
  obtain ⟨s', h'⟩ := this
  rw [h']
  exact ⟨_, rfl⟩

end Foxxll.StreamOpen
