import Verif.Spec.DevStore
import Verif.Proofs.StoreServe
/-
What the transfer of one request, a growing disk and a discarded block do to a file of each kind.
-/
namespace Foxxll.DStore
open Foxxll
open Foxxll.Store (Req Wrote Hist Apart upd upd_same upd_other)

/-- A file in use: at least `n` bytes can be accessed. -/
def Dev.Ok (n : Nat) : Dev → Prop
  | .sys f => Files.Wf f ∧ n ≤ f.size
  | .mmap page f => 0 < page ∧ Files.Wf f ∧ n ≤ f.size
  | .mem m => n ≤ (m.ptr.getD []).length
  | .fpb mode _ fs => mode.rdonly = false ∧ mode.trunc = false ∧ mode.creat = true ∧ ∀ nm f, fs nm = some f → Files.Wf f

theorem pread_congr {f g : Files.File} {o o' z : Nat} (h : ∀ i, i < z → f.byte (o + i) = g.byte (o' + i)) : Files.pread f o z = Files.pread g o' z := by
  unfold Files.pread
  apply List.map_congr_left
  intro i hi
  exact h i (List.mem_range.1 hi)

theorem pread_list {f : Files.File} {o z : Nat} {l : List UInt8} (hl : l.length = z) (h : ∀ i (hi : i < l.length), f.byte (o + i) = l[i]) :
    Files.pread f o z = l := by
  apply List.ext_getElem (by simp [Files.pread, hl])
  intro i h1 h2
  simp [Files.pread, h i h2]

/-- Bytes of a memory file. -/
def bytesM (l : List UInt8) (o z : Nat) : List UInt8 := (List.range z).map fun i => l.getD (o + i) 0

theorem bytesM_congr {l l' : List UInt8} {o z : Nat} (h : ∀ i, i < z → l.getD (o + i) 0 = l'.getD (o + i) 0) : bytesM l o z = bytesM l' o z := by
  unfold bytesM
  apply List.map_congr_left
  intro i hi
  exact h i (List.mem_range.1 hi)

theorem bytesM_slice {l : List UInt8} {o z : Nat} (h : o + z ≤ l.length) : bytesM l o z = (l.drop o).take z := by
  unfold bytesM
  apply List.ext_getElem?
  intro i
  by_cases hi : i < z
  · rw [List.getElem?_take_of_lt hi, List.getElem?_drop]
    simp [hi, List.getElem?_eq_getElem (show o + i < l.length by omega)]
  · rw [List.getElem?_eq_none (by simp; omega), List.getElem?_eq_none (by simp; omega)]

theorem store_all {buf l : List UInt8} (h : l.length = buf.length) : Files.store buf 0 l = l := by
  simp [Files.store, h]

theorem bytesM_store {l d : List UInt8} {off : Nat} (h : off + d.length ≤ l.length) : bytesM (Files.store l off d) off d.length = d := by
  unfold bytesM
  apply List.ext_getElem (by simp)
  intro i h1 h2
  simp only [List.getElem_map, List.getElem_range, List.getD_eq_getElem?_getD]
  rw [Files.store_get _ _ _ h, if_pos (by omega)]
  simp [List.getElem?_eq_getElem h2]

theorem bytesM_store_apart {l d : List UInt8} {off o z : Nat} (h : off + d.length ≤ l.length) (hz : 0 < z) (hd : 0 < d.length)
    (ha : Apart off d.length o z) : bytesM (Files.store l off d) o z = bytesM l o z := by
  apply bytesM_congr
  intro i hi
  simp only [List.getD_eq_getElem?_getD]
  rw [Files.store_get _ _ _ h, if_neg (by unfold Apart at ha; omega)]

theorem name_inj' {p : List Char} {o o' : Nat} (e : Files.filenameForBlock p o = Files.filenameForBlock p o') : o = o' := by
  unfold Files.filenameForBlock at e
  have h := (List.append_cancel_left e)
  rw [← Files.val_padded 20 o, ← Files.val_padded 20 o', h]

theorem name_apart {p : List Char} {off bytes o z : Nat} (hb : 0 < bytes) (hz : 0 < z) (ha : Apart off bytes o z) :
    Files.filenameForBlock p o ≠ Files.filenameForBlock p off := by
  intro e
  have := name_inj' e
  unfold Apart at ha
  omega

/-- What a transfer does to a file and to the buffer, whether it throws or not. -/
structure Eff (n : Nat) (d d' : Dev) (w : Bool) (buf buf' : List UInt8) (off bytes : Nat) : Prop where
  ok : d'.Ok n
  len : buf'.length = buf.length
  out : ∀ o z, 0 < z → Apart off bytes o z → d'.block o z = d.block o z
  wr : w = true → buf' = buf
  rd : w = false → d'.block off bytes = d.block off bytes

/-- What a transfer without exception does in addition. -/
structure Good (d d' : Dev) (w : Bool) (buf buf' : List UInt8) (off bytes : Nat) : Prop where
  put : w = true → d'.block off bytes = buf
  get : w = false → buf' = d.block off bytes

def Goal (n : Nat) (d : Dev) (w : Bool) (buf : List UInt8) (off bytes : Nat) : Res → Prop
  | .done d' b' => Eff n d d' w buf b' off bytes ∧ Good d d' w buf b' off bytes
  | .throws d' b' => Eff n d d' w buf b' off bytes
  | .dead => False

/-- A write into a file of the operating system. -/
theorem write_file (os : Nat → Files.Sys) {f : Files.File} (hw : Files.Wf f) {buf : List UInt8} {off bytes : Nat} (hl : buf.length = bytes) :
    ∃ f', Files.Wf f' ∧ f.size ≤ f'.size ∧ (∀ o z, 0 < z → 0 < bytes → Apart off bytes o z → Files.pread f' o z = Files.pread f o z) ∧
      ((Files.serveWrite os f buf off bytes = .done f' buf ∧ Files.pread f' off bytes = buf) ∨ Files.serveWrite os f buf off bytes = .throws f' buf) := by
  have h := Files.C33_write os hw buf off bytes (by omega)
  have key : ∀ (f' : Files.File) (k : Nat), k ≤ bytes → f'.size = (if k = 0 then f.size else max f.size (off + k)) →
      (∀ i, i < off ∨ off + k ≤ i → f'.byte i = f.byte i) →
      Files.Wf f' ∧ f.size ≤ f'.size ∧ (∀ o z, 0 < z → 0 < bytes → Apart off bytes o z → Files.pread f' o z = Files.pread f o z) := by
    intro f' k hk h2 h4
    refine ⟨?_, by rw [h2]; split <;> omega, ?_⟩
    · intro i hi
      by_cases h0 : k = 0
      · rw [if_pos h0] at h2
        rw [h4 i (by omega)]; exact hw i (by omega)
      · rw [if_neg h0] at h2
        rw [h4 i (by omega)]; exact hw i (by omega)
    · intro o z hz hb ha
      apply pread_congr
      intro i hi
      exact h4 _ (by unfold Apart at ha; omega)
  split at h
  · rename_i f' b' he
    obtain ⟨h1, h2, h3, h4⟩ := h
    obtain ⟨k1, k2, k3⟩ := key f' bytes (Nat.le_refl _) h2 h4
    subst h1
    exact ⟨f', k1, k2, k3, .inl ⟨he, pread_list hl (fun i hi => h3 i (by omega))⟩⟩
  · rename_i f' b' he
    obtain ⟨h1, k, hk, h2, h3, h4⟩ := h
    obtain ⟨k1, k2, k3⟩ := key f' k (by omega) h2 h4
    subst h1
    exact ⟨f', k1, k2, k3, .inr he⟩
  · exact h.elim

/-- A read from a file of the operating system. -/
theorem read_file (os : Nat → Files.Sys) {f : Files.File} (hw : Files.Wf f) {buf : List UInt8} {off bytes : Nat} (hl : buf.length = bytes) :
    ∃ b', b'.length = buf.length ∧ ((Files.serveRead os f buf off bytes = .done f b' ∧ b' = Files.pread f off bytes) ∨
      Files.serveRead os f buf off bytes = .throws f b') := by
  have h := Files.C33_read os hw buf off bytes (by omega)
  split at h
  · rename_i f' b' he
    obtain ⟨h1, h2, h3⟩ := h
    subst h1
    refine ⟨b', h2, .inl ⟨he, (pread_list (by omega) (fun i hi => ?_)).symm⟩⟩
    have := h3 i (by omega)
    rw [List.getElem?_eq_getElem hi, if_pos (by omega)] at this
    have := Option.some.inj this
    rw [this]
    split
    · rfl
    · rw [hw _ (by omega)]
  · rename_i f' b' he
    obtain ⟨h1, h2, h3⟩ := h
    subst h1
    exact ⟨b', h2, .inr he⟩
  · exact h.elim

theorem serve_sys {n : Nat} {f : Files.File} (h : (Dev.sys f).Ok n) (os : Os) (w : Bool) {buf : List UInt8} {off bytes : Nat}
    (h0 : 0 < bytes) (hl : buf.length = bytes) : Goal n (.sys f) w buf off bytes ((Dev.sys f).serve os w buf off bytes) := by
  obtain ⟨hw, hn⟩ := h
  cases w with
  | true =>
    obtain ⟨f', h1, h2, h3, h4⟩ := write_file os.sys hw (off := off) hl
    have E : Eff n (.sys f) (.sys f') true buf buf off bytes :=
      ⟨⟨h1, by omega⟩, rfl, fun o z hz ha => h3 o z hz h0 ha, fun _ => rfl, fun h => (by cases h)⟩
    rcases h4 with ⟨h4, h5⟩ | h4
    · simp only [Dev.serve, if_true, h4]
      exact ⟨E, ⟨fun _ => h5, fun h => (by cases h)⟩⟩
    · simp only [Dev.serve, if_true, h4]
      exact E
  | false =>
    obtain ⟨b', h1, h2⟩ := read_file os.sys hw (off := off) hl
    have E : Eff n (.sys f) (.sys f) false buf b' off bytes :=
      ⟨⟨hw, hn⟩, h1, fun _ _ _ _ => rfl, fun h => (by cases h), fun _ => rfl⟩
    rcases h2 with ⟨h2, h3⟩ | h2
    · simp only [Dev.serve, Bool.false_eq_true, if_false, h2]
      exact ⟨E, ⟨fun h => (by cases h), fun _ => h3⟩⟩
    · simp only [Dev.serve, Bool.false_eq_true, if_false, h2]
      exact E

theorem serve_mmap {n page : Nat} {f : Files.File} (h : (Dev.mmap page f).Ok n) (os : Os) (w : Bool) {buf : List UInt8} {off bytes : Nat}
    (h0 : 0 < bytes) (hi : off + bytes ≤ n) (hl : buf.length = bytes) : Goal n (.mmap page f) w buf off bytes ((Dev.mmap page f).serve os w buf off bytes) := by
  obtain ⟨hp, hw, hn⟩ := h
  have hup : f.size ≤ (f.size + page - 1) / page * page := by
    have h1 := Nat.div_add_mod (f.size + page - 1) page
    have h2 := Nat.mod_lt (f.size + page - 1) hp
    have h3 : page * ((f.size + page - 1) / page) = (f.size + page - 1) / page * page := Nat.mul_comm _ _
    omega
  simp only [Dev.serve, Files.serveMmap]
  by_cases hx : bytes = 0 ∨ off % page ≠ 0 ∨ os.mapFails = true
  · rw [if_pos hx]
    exact ⟨⟨hp, hw, hn⟩, rfl, fun _ _ _ _ => rfl, fun _ => rfl, fun _ => rfl⟩
  · rw [if_neg hx, if_neg (by omega)]
    have E : Eff n (.mmap page f) (.mmap page (if w then Files.mapWrite f off (buf.take bytes) else f)) w buf
        (if w then buf else Files.store buf 0 (Files.pread f off bytes)) off bytes ∧
        Good (.mmap page f) (.mmap page (if w then Files.mapWrite f off (buf.take bytes) else f)) w buf
        (if w then buf else Files.store buf 0 (Files.pread f off bytes)) off bytes := by
      cases w with
      | true =>
        simp only [if_true]
        have ht : buf.take bytes = buf := List.take_of_length_le (by omega)
        rw [ht]
        refine ⟨⟨⟨hp, ?_, hn⟩, rfl, ?_, fun _ => rfl, fun h => (by cases h)⟩, ?_, fun h => (by cases h)⟩
        · intro i hi'
          simp only [Files.mapWrite] at hi' ⊢
          rw [if_neg (by omega)]; exact hw i hi'
        · intro o z hz ha
          apply pread_congr
          intro i hi'
          simp only [Files.mapWrite]
          rw [if_neg (by unfold Apart at ha; omega)]
        · intro _
          refine pread_list hl (fun i hi' => ?_)
          simp only [Files.mapWrite]
          rw [if_pos (by omega)]
          simp [hi']
      | false =>
        simp only [Bool.false_eq_true, if_false]
        have hs : Files.store buf 0 (Files.pread f off bytes) = Files.pread f off bytes := store_all (by rw [Files.length_pread, hl])
        rw [hs]
        exact ⟨⟨⟨hp, hw, hn⟩, by rw [Files.length_pread, hl], fun _ _ _ _ => rfl, fun h => (by cases h), fun _ => rfl⟩, fun h => (by cases h), fun _ => rfl⟩
    by_cases hu : os.unmapFails = true
    · rw [if_pos hu]; exact E.1
    · rw [if_neg hu]; exact E

theorem serve_mem {n : Nat} {m : Files.Mem} (h : (Dev.mem m).Ok n) (os : Os) (w : Bool) {buf : List UInt8} {off bytes : Nat}
    (h0 : 0 < bytes) (hi : off + bytes ≤ n) (hl : buf.length = bytes) : Goal n (.mem m) w buf off bytes ((Dev.mem m).serve os w buf off bytes) := by
  have hn : n ≤ (m.ptr.getD []).length := h
  cases hp : m.ptr with
  | none => rw [hp] at hn; simp at hn; omega
  | some l =>
    rw [hp] at hn
    simp only [Option.getD_some] at hn
    have hb : ∀ o z, (Dev.mem m).block o z = bytesM l o z := by intro o z; simp only [Dev.block, hp, Option.getD_some]; rfl
    cases w with
    | true =>
      have ht : buf.take bytes = buf := List.take_of_length_le (by omega)
      simp only [Dev.serve, if_true, ht, Files.Mem.write, hp]
      rw [if_pos (by omega)]
      have hb' : ∀ o z, (Dev.mem { m with ptr := some (Files.store l off buf) }).block o z = bytesM (Files.store l off buf) o z := fun o z => rfl
      refine ⟨⟨?_, rfl, ?_, fun _ => rfl, fun h => (by cases h)⟩, ?_, fun h => (by cases h)⟩
      · show n ≤ (Files.store l off buf).length
        rw [Files.length_store _ _ _ (by omega)]; exact hn
      · intro o z hz ha
        rw [hb, hb']
        exact bytesM_store_apart (by omega) hz (by omega) (by rw [hl]; exact ha)
      · intro _
        rw [hb', ← hl]; exact bytesM_store (by omega)
    | false =>
      simp only [Dev.serve, Bool.false_eq_true, if_false, Files.Mem.read, hp]
      rw [if_pos (by omega)]
      have hs := bytesM_slice (l := l) (o := off) (z := bytes) (by omega)
      have hlen : ((l.drop off).take bytes).length = bytes := by simp; omega
      simp only
      rw [store_all (by rw [hlen, hl])]
      exact ⟨⟨h, by rw [hlen, hl], fun _ _ _ _ => rfl, fun h => (by cases h), fun _ => rfl⟩, fun h => (by cases h), fun _ => by rw [hb, hs]⟩

/-- Block of a file per block. -/
theorem block_set {mode : Files.Mode} {pre : List Char} {fs : Files.FS} {off : Nat} {f : Files.File} (z : Nat) :
    (Dev.fpb mode pre (fs.set (Files.filenameForBlock pre off) (some f))).block off z = Files.pread f 0 z := by
  simp [Dev.block, Files.FS.set]

theorem block_set_other {mode : Files.Mode} {pre : List Char} {fs : Files.FS} {off : Nat} {f : Option Files.File} {bytes o z : Nat} (hb : 0 < bytes)
    (hz : 0 < z) (ha : Apart off bytes o z) :
    (Dev.fpb mode pre (fs.set (Files.filenameForBlock pre off) f)).block o z = (Dev.fpb mode pre fs).block o z := by
  simp only [Dev.block]
  rw [Files.fs_set_other (name_apart hb hz ha)]

theorem set_wf {fs : Files.FS} (h : ∀ nm f, fs nm = some f → Files.Wf f) {nm : List Char} {f : Files.File} (hf : Files.Wf f) :
    ∀ nm' g, fs.set nm (some f) nm' = some g → Files.Wf g := by
  intro nm' g hg
  unfold Files.FS.set at hg
  split at hg
  · injection hg with hg; subst hg; exact hf
  · exact h _ _ hg

theorem serve_fpb {n : Nat} {mode : Files.Mode} {pre : List Char} {fs : Files.FS} (h : (Dev.fpb mode pre fs).Ok n) (os : Os) (w : Bool) {buf : List UInt8}
    {off bytes : Nat} (h0 : 0 < bytes) (hl : buf.length = bytes) :
    Goal n (.fpb mode pre fs) w buf off bytes ((Dev.fpb mode pre fs).serve os w buf off bytes) := by
  obtain ⟨hm1, hm2, hm3, hw⟩ := h
  have hself : (Dev.fpb mode pre fs).Ok n := ⟨hm1, hm2, hm3, hw⟩
  simp only [Dev.serve, Files.fpbServe]
  by_cases ho : os.openFails = true
  · rw [if_pos ho]
    simp only [if_true]
    exact ⟨hself, rfl, fun _ _ _ _ => rfl, fun _ => rfl, fun _ => rfl⟩
  · rw [if_neg ho]
    have hopen : ∃ f0, Files.openFile mode (fs (Files.filenameForBlock pre off)) = some f0 ∧ Files.Wf f0 ∧
        ∀ z, (Dev.fpb mode pre fs).block off z = Files.pread f0 0 z := by
      cases hf : fs (Files.filenameForBlock pre off) with
      | none =>
        refine ⟨Files.emptyFile, by simp [Files.openFile, hm3], fun _ _ => rfl, fun z => ?_⟩
        simp [Dev.block, hf]
      | some f =>
        refine ⟨f, by simp [Files.openFile, hm2], hw _ _ hf, fun z => ?_⟩
        simp [Dev.block, hf]
    obtain ⟨f0, ho1, ho2, ho3⟩ := hopen
    rw [ho1]
    simp only [Files.setSize, hm1, Bool.false_eq_true, if_false]
    have hother : ∀ (f' : Files.File), ∀ o z, 0 < z → Apart off bytes o z →
        (Dev.fpb mode pre (fs.set (Files.filenameForBlock pre off) (some f'))).block o z = (Dev.fpb mode pre fs).block o z :=
      fun f' o z hz ha => block_set_other h0 hz ha
    by_cases ht : os.truncFails = true
    · rw [if_pos ht]
      simp only [if_true]
      exact ⟨⟨hm1, hm2, hm3, set_wf hw ho2⟩, rfl, hother _, fun _ => rfl, fun _ => by rw [block_set, ho3]⟩
    · rw [if_neg ht]
      have hw1 : Files.Wf (Files.truncate f0 bytes) := Files.truncate_wf _ _
      have hb1 : Files.pread (Files.truncate f0 bytes) 0 bytes = Files.pread f0 0 bytes := by
        apply pread_congr
        intro i hi
        simp only [Files.truncate]
        rw [if_pos (by omega)]
      simp only [Bool.and_false, Bool.false_eq_true, if_false]
      cases w with
      | true =>
        obtain ⟨f', g1, g2, g3, g4⟩ := write_file os.sys hw1 (off := 0) hl
        simp only [if_true]
        have E : Eff n (.fpb mode pre fs) (.fpb mode pre (fs.set (Files.filenameForBlock pre off) (some f'))) true buf buf off bytes :=
          ⟨⟨hm1, hm2, hm3, set_wf hw g1⟩, rfl, hother _, fun _ => rfl, fun h => (by cases h)⟩
        rcases g4 with ⟨g4, g5⟩ | g4
        · rw [g4]
          simp only [Bool.false_eq_true, if_false]
          exact ⟨E, ⟨fun _ => by rw [block_set, g5], fun h => (by cases h)⟩⟩
        · rw [g4]
          simp only [if_true]
          exact E
      | false =>
        obtain ⟨b', g1, g2⟩ := read_file os.sys hw1 (off := 0) hl
        simp only [Bool.false_eq_true, if_false]
        have E : Eff n (.fpb mode pre fs) (.fpb mode pre (fs.set (Files.filenameForBlock pre off) (some (Files.truncate f0 bytes)))) false buf b' off bytes :=
          ⟨⟨hm1, hm2, hm3, set_wf hw hw1⟩, g1, hother _, fun h => (by cases h), fun _ => by rw [block_set, hb1, ho3]⟩
        rcases g2 with ⟨g2, g3⟩ | g2
        · rw [g2]
          simp only [Bool.false_eq_true, if_false]
          exact ⟨E, ⟨fun h => (by cases h), fun _ => by rw [ho3, ← hb1]; exact g3⟩⟩
        · rw [g2]
          simp only [if_true]
          exact E

theorem serve_goal {n : Nat} {d : Dev} (h : d.Ok n) (os : Os) (w : Bool) {buf : List UInt8} {off bytes : Nat} (h0 : 0 < bytes) (hi : off + bytes ≤ n)
    (hl : buf.length = bytes) : Goal n d w buf off bytes (d.serve os w buf off bytes) := by
  cases d with
  | sys f => exact serve_sys h os w h0 hl
  | mmap page f => exact serve_mmap h os w h0 hi hl
  | mem m => exact serve_mem h os w h0 hi hl
  | fpb mode pre fs => exact serve_fpb h os w h0 hl

/-! ### Growing and discarding -/

theorem grown_ok {n n' : Nat} {d : Dev} (h : d.Ok n) (hn : n ≤ n') (junk : Nat → UInt8) : (grown n n' junk d).Ok n' := by
  unfold grown
  split
  · cases d with
    | sys f => exact ⟨Files.truncate_wf _ _, Nat.le_refl _⟩
    | mmap page f => exact ⟨h.1, Files.truncate_wf _ _, Nat.le_refl _⟩
    | mem m =>
      show n' ≤ ((m.ptr.getD []).take n' ++ (List.range (n' - (m.ptr.getD []).length)).map junk).length
      simp; omega
    | fpb mode pre fs => exact h
  · have : n' = n := by omega
    subst this; exact h

theorem grown_block {n n' : Nat} {d : Dev} (h : d.Ok n) (junk : Nat → UInt8) {o z : Nat} (hi : o + z ≤ n) :
    (grown n n' junk d).block o z = d.block o z := by
  unfold grown
  split
  · cases d with
    | sys f =>
      apply pread_congr
      intro i hi'
      simp only [Files.truncate]; rw [if_pos (by omega)]
    | mmap page f =>
      apply pread_congr
      intro i hi'
      simp only [Files.truncate]; rw [if_pos (by omega)]
    | mem m =>
      have hn : n ≤ (m.ptr.getD []).length := h
      show bytesM ((m.ptr.getD []).take n' ++ (List.range (n' - (m.ptr.getD []).length)).map junk) o z = bytesM (m.ptr.getD []) o z
      apply bytesM_congr
      intro i hi'
      simp only [List.getD_eq_getElem?_getD]
      rw [List.getElem?_append_left (by simp; omega), List.getElem?_take_of_lt (by omega)]
    | fpb mode pre fs => rfl
  · rfl

theorem discard_ok {n : Nat} {d : Dev} (h : d.Ok n) {off bytes : Nat} (h0 : 0 < bytes) (hi : off + bytes ≤ n) (junk : Nat → UInt8) (rm : Bool) :
    ∃ d', d.discard off bytes junk rm = some d' ∧ d'.Ok n ∧ ∀ o z, 0 < z → Apart off bytes o z → d'.block o z = d.block o z := by
  cases d with
  | sys f => exact ⟨_, rfl, h, fun _ _ _ _ => rfl⟩
  | mmap page f => exact ⟨_, rfl, h, fun _ _ _ _ => rfl⟩
  | mem m =>
    have hn : n ≤ (m.ptr.getD []).length := h
    cases hp : m.ptr with
    | none => rw [hp] at hn; simp at hn; omega
    | some l =>
      rw [hp] at hn
      simp only [Option.getD_some] at hn
      have hlen : ((List.range bytes).map (fun i => junk (i % 4096))).length = bytes := by simp
      refine ⟨.mem { m with ptr := some (Files.store l off ((List.range bytes).map (fun i => junk (i % 4096)))) }, ?_, ?_, ?_⟩
      · simp only [Dev.discard, Files.Mem.discard, Files.Mem.write, hp]
        rw [if_neg (by omega), if_pos (by rw [hlen]; omega)]
      · show n ≤ (Files.store l off _).length
        rw [Files.length_store _ _ _ (by rw [hlen]; omega)]; exact hn
      · intro o z hz ha
        show bytesM (Files.store l off _) o z = bytesM (m.ptr.getD []) o z
        rw [hp]
        exact bytesM_store_apart (by rw [hlen]; omega) hz (by omega) (by rw [hlen]; exact ha)
  | fpb mode pre fs =>
    obtain ⟨hm1, hm2, hm3, hw⟩ := h
    refine ⟨_, rfl, ⟨hm1, hm2, hm3, ?_⟩, ?_⟩
    · intro nm f hf
      unfold Files.fpbDiscard at hf
      split at hf
      · exact hw _ _ hf
      · unfold Files.FS.set at hf
        split at hf
        · cases hf
        · exact hw _ _ hf
    · intro o z hz ha
      unfold Files.fpbDiscard
      split
      · rfl
      · exact block_set_other h0 hz ha

/-! ### A request -/

/-- Effect of a transfer. -/
structure Moved (n : Nat) (s s' : St) (x : Nat) (q : Req) : Prop where
  m : s'.m = s.m
  qs : s'.qs = s.qs
  reqs : s'.reqs = s.reqs
  dead : s'.dead = s.dead
  other : ∀ d, d ≠ q.disk → s'.files d = s.files d
  rd : q.write = false → (s'.files q.disk).block q.off q.size = (s.files q.disk).block q.off q.size
  wr : q.write = true → s'.mem = s.mem
  out : ∀ o z, 0 < z → Apart q.off q.size o z → (s'.files q.disk).block o z = (s.files q.disk).block o z
  put : q.write = true → x ∉ s'.failed → (s'.files q.disk).block q.off q.size = s.mem q.buf
  ok : (s'.files q.disk).Ok n
  bufs : ∀ b, b ≠ q.buf → s'.mem b = s.mem b
  len : (s'.mem q.buf).length = (s.mem q.buf).length
  get : q.write = false → x ∉ s'.failed → s'.mem q.buf = (s.files q.disk).block q.off q.size
  fail : ∀ y ∈ s.failed, y ∈ s'.failed
  only : ∀ y ∈ s'.failed, y = x ∨ y ∈ s.failed

theorem upd_self {α : Type} (f : Nat → α) (i : Nat) : upd f i (f i) = f := by
  funext j
  by_cases e : j = i
  · subst e; rw [upd_same]
  · rw [upd_other _ _ e]

theorem serve_moved {s : St} {x n : Nat} {q : Req} (os : Os) (hq : s.reqs x = some q) (hl : (s.mem q.buf).length = q.size) (h0 : 0 < q.size)
    (hi : q.off + q.size ≤ n) (hok : (s.files q.disk).Ok n) : Moved n s (s.serve x os) x q := by
  have hg := serve_goal hok os q.write h0 hi hl
  unfold St.serve
  rw [hq]
  simp only
  unfold Goal at hg
  split at hg
  · rename_i d' b' he
    rw [he]
    obtain ⟨E, G⟩ := hg
    exact ⟨rfl, rfl, rfl, rfl, fun d hd => upd_other _ _ hd, fun h => (by simp only [upd_same]; exact E.rd h),
      fun h => (by simp only; rw [E.wr h, upd_self]), fun o z hz ha => (by simp only [upd_same]; exact E.out o z hz ha),
      fun h _ => (by simp only [upd_same]; exact G.put h), (by simp only [upd_same]; exact E.ok), fun b hb => upd_other _ _ hb,
      (by simp only [upd_same]; exact E.len), fun h _ => (by simp only [upd_same]; exact G.get h), fun _ h => h, fun _ h => .inr h⟩
  · rename_i d' b' he
    rw [he]
    have E := hg
    exact ⟨rfl, rfl, rfl, rfl, fun d hd => upd_other _ _ hd, fun h => (by simp only [upd_same]; exact E.rd h),
      fun h => (by simp only; rw [E.wr h, upd_self]), fun o z hz ha => (by simp only [upd_same]; exact E.out o z hz ha),
      fun _ h => absurd List.mem_cons_self h, (by simp only [upd_same]; exact E.ok), fun b hb => upd_other _ _ hb,
      (by simp only [upd_same]; exact E.len), fun _ h => absurd List.mem_cons_self h, fun _ h => List.mem_cons_of_mem _ h, fun _ h => by simpa using h⟩
  · exact hg.elim

end Foxxll.DStore
