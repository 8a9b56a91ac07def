import Verif.Model.Files
/-
Lemmas for C33-C35 and C64.
-/
set_option linter.unusedSimpArgs false
set_option linter.unusedVariables false
namespace Foxxll.Files

/-- Bytes from the size on are zero. -/
def Wf (f : File) : Prop := ∀ i, f.size ≤ i → f.byte i = 0

theorem file_ext {f g : File} (h1 : f.size = g.size) (h2 : ∀ i, f.byte i = g.byte i) : f = g := by
  cases f with
  | mk fs fb =>
    cases g with
    | mk gs gb =>
      simp only at h1 h2
      rw [h1, funext h2]

theorem length_pread (f : File) (off n : Nat) : (pread f off n).length = n := by simp [pread]

theorem pread_get (f : File) (off n i : Nat) (h : i < n) : (pread f off n)[i]? = some (f.byte (off + i)) := by
  simp [pread, h]

theorem pread_add (f : File) (off a b : Nat) : pread f off (a + b) = pread f off a ++ pread f (off + a) b := by
  unfold pread
  rw [List.range_add, List.map_append, List.map_map]
  congr 1
  apply List.map_congr_left
  intro i _
  simp only [Function.comp]
  congr 1
  omega

theorem pread_zero {f : File} (h : Wf f) (off n : Nat) (ho : f.size ≤ off) : pread f off n = List.replicate n 0 := by
  apply List.ext_getElem?
  intro i
  by_cases hi : i < n
  · rw [pread_get _ _ _ _ hi, h _ (by omega)]; simp [hi]
  · rw [List.getElem?_eq_none (by rw [length_pread]; omega), List.getElem?_eq_none (by simp; omega)]

theorem length_store (buf : List UInt8) (pos : Nat) (l : List UInt8) (h : pos + l.length ≤ buf.length) :
    (store buf pos l).length = buf.length := by
  simp [store]; omega

theorem store_get (buf : List UInt8) (pos : Nat) (l : List UInt8) (h : pos + l.length ≤ buf.length) (i : Nat) :
    (store buf pos l)[i]? = if pos ≤ i ∧ i < pos + l.length then l[i - pos]? else buf[i]? := by
  unfold store
  have htk : (buf.take pos).length = pos := by simp; omega
  by_cases h1 : i < pos
  · rw [if_neg (by omega), List.append_assoc, List.getElem?_append_left (by omega), List.getElem?_take_of_lt h1]
  · by_cases h2 : i < pos + l.length
    · rw [if_pos ⟨by omega, h2⟩, List.append_assoc, List.getElem?_append_right (by omega), htk,
        List.getElem?_append_left (by omega)]
    · rw [if_neg (by omega), List.getElem?_append_right (by rw [List.length_append]; omega), List.getElem?_drop, List.length_append, htk]
      congr 1; omega

theorem store_nil (buf : List UInt8) (pos : Nat) : store buf pos [] = buf := by
  simp [store]

theorem store_store (buf : List UInt8) (pos : Nat) (a b : List UInt8) (h : pos + a.length + b.length ≤ buf.length) :
    store (store buf pos a) (pos + a.length) b = store buf pos (a ++ b) := by
  apply List.ext_getElem?
  intro i
  rw [store_get _ _ _ (by rw [length_store _ _ _ (by omega)]; omega), store_get _ _ _ (by omega), store_get _ _ _ (by rw [List.length_append]; omega)]
  simp only [List.length_append]
  by_cases h1 : pos + a.length ≤ i ∧ i < pos + a.length + b.length
  · rw [if_pos h1, if_pos (by omega), List.getElem?_append_right (by omega)]
    congr 1; omega
  · rw [if_neg h1]
    by_cases h2 : pos ≤ i ∧ i < pos + a.length
    · rw [if_pos h2, if_pos (by omega), List.getElem?_append_left (by omega)]
    · rw [if_neg h2, if_neg (by omega)]

/-! ### Reading -/

theorem readLoop_spec (os : Nat → Sys) {f : File} (hw : Wf f) : ∀ (fuel c : Nat) (buf : List UInt8) (pos off bytes : Nat),
    bytes < fuel → pos + bytes ≤ buf.length →
    readLoop os f fuel c buf pos off bytes = .done f (store buf pos (pread f off bytes)) ∨
    ∃ k, k ≤ bytes ∧ readLoop os f fuel c buf pos off bytes = .throws f (store buf pos (pread f off k)) ∧
      (2 ^ 63 < off + bytes ∨ f.size ≤ off ∨ ∃ c', c ≤ c' ∧ c' < c + bytes ∧ ((os c').seekFails = true ∨ (os c').rc = none ∨ (os c').rc = some 0 ∨ (os c').sizeFails = true)) := by
  intro fuel
  induction fuel with
  | zero => intro c buf pos off bytes h; omega
  | succ fuel ih =>
    intro c buf pos off bytes hf hl
    by_cases hb : bytes = 0
    · left; subst hb; simp [readLoop, pread, store_nil]
    have hthrow0 : store buf pos (pread f off 0) = buf := by simp [pread, store_nil]
    by_cases hs : (os c).seekFails = true ∨ 2 ^ 63 ≤ off
    · right
      refine ⟨0, by omega, ?_, ?_⟩
      · rw [hthrow0]; unfold readLoop; rw [if_neg hb, if_pos hs]
      · rcases hs with hs | hs
        · exact .inr (.inr ⟨c, by omega, by omega, .inl hs⟩)
        · exact .inl (by omega)
    cases hrc : (os c).rc with
    | none =>
      right
      refine ⟨0, by omega, ?_, .inr (.inr ⟨c, by omega, by omega, .inr (.inl hrc)⟩)⟩
      rw [hthrow0]; unfold readLoop; rw [if_neg hb, if_neg hs]; simp only [hrc]
    | some k =>
      by_cases hz : min k (min bytes (f.size - off)) = 0
      · right
        refine ⟨0, by omega, ?_, ?_⟩
        · rw [hthrow0]; unfold readLoop; rw [if_neg hb, if_neg hs]; simp only [hrc]; rw [if_pos hz]
        · by_cases hk : k = 0
          · exact .inr (.inr ⟨c, by omega, by omega, .inr (.inr (.inl (by rw [hrc, hk])))⟩)
          · exact .inr (.inl (by omega))
      have hun : readLoop os f (fuel + 1) c buf pos off bytes =
          (if bytes - min k (min bytes (f.size - off)) > 0 then
            if (os c).sizeFails then .throws f (store buf pos (pread f off (min k (min bytes (f.size - off)))))
            else if off + min k (min bytes (f.size - off)) = f.size then
              .done f (store (store buf pos (pread f off (min k (min bytes (f.size - off))))) (pos + min k (min bytes (f.size - off))) (List.replicate (bytes - min k (min bytes (f.size - off))) 0))
            else readLoop os f fuel (c + 1) (store buf pos (pread f off (min k (min bytes (f.size - off))))) (pos + min k (min bytes (f.size - off))) (off + min k (min bytes (f.size - off))) (bytes - min k (min bytes (f.size - off)))
          else readLoop os f fuel (c + 1) (store buf pos (pread f off (min k (min bytes (f.size - off))))) (pos + min k (min bytes (f.size - off))) (off + min k (min bytes (f.size - off))) (bytes - min k (min bytes (f.size - off)))) := by
        conv => lhs; unfold readLoop
        rw [if_neg hb, if_neg hs]; simp only [hrc]; rw [if_neg hz]
      rw [hun]
      generalize hr : min k (min bytes (f.size - off)) = rc at *
      have hrb : rc ≤ bytes := by omega
      have hrs : off + rc ≤ f.size := by omega
      have hr0 : 0 < rc := by omega
      have hlb : pos + (pread f off rc).length ≤ buf.length := by rw [length_pread]; omega
      have hjoin : ∀ n, n ≤ bytes - rc → store (store buf pos (pread f off rc)) (pos + rc) (pread f (off + rc) n) = store buf pos (pread f off (rc + n)) := by
        intro n hn
        rw [pread_add]
        have := store_store buf pos (pread f off rc) (pread f (off + rc) n) (by rw [length_pread, length_pread]; omega)
        rw [length_pread] at this
        exact this
      have hrec := ih (c + 1) (store buf pos (pread f off rc)) (pos + rc) (off + rc) (bytes - rc) (by omega)
        (by rw [length_store _ _ _ hlb]; omega)
      by_cases hmore : bytes - rc > 0
      · rw [if_pos hmore]
        by_cases hsf : (os c).sizeFails = true
        · right
          exact ⟨rc, hrb, by rw [if_pos hsf], .inr (.inr ⟨c, by omega, by omega, .inr (.inr (.inr hsf))⟩)⟩
        rw [if_neg hsf]
        by_cases he : off + rc = f.size
        · left
          rw [if_pos he, ← pread_zero hw (off + rc) (bytes - rc) (by omega), hjoin _ (Nat.le_refl _)]
          congr 3; omega
        · rw [if_neg he]
          rcases hrec with h | ⟨k', hk', h, hor⟩
          · left; rw [h, hjoin _ (Nat.le_refl _)]; congr 3; omega
          · right
            refine ⟨rc + k', by omega, by rw [h, hjoin _ hk'], ?_⟩
            rcases hor with h | h | ⟨c', h1, h2, h3⟩
            · exact .inl (by omega)
            · exact absurd h (by omega)
            · exact .inr (.inr ⟨c', by omega, by omega, h3⟩)
      · rw [if_neg hmore]
        have hb0 : bytes - rc = 0 := by omega
        rw [hb0] at hrec ⊢
        rcases hrec with h | ⟨k', hk', h, hor⟩
        · left; rw [h]
          have := hjoin 0 (by omega)
          rw [this]; congr 3; omega
        · exfalso
          cases fuel with
          | zero => omega
          | succ fuel => rw [readLoop, if_pos rfl] at h; cases h

/-! ### Writing -/

theorem pwrite_size (f : File) (off : Nat) (l : List UInt8) : (pwrite f off l).size = if l = [] then f.size else max f.size (off + l.length) := by
  unfold pwrite; split <;> rfl

theorem pwrite_byte (f : File) (off : Nat) (l : List UInt8) (i : Nat) :
    (pwrite f off l).byte i = if off ≤ i ∧ i < off + l.length then l.getD (i - off) 0 else f.byte i := by
  unfold pwrite
  split
  · rename_i h; subst h; rw [if_neg (by simp)]
  · rfl

theorem pwrite_wf {f : File} (h : Wf f) (off : Nat) (l : List UInt8) : Wf (pwrite f off l) := by
  intro i hi
  rw [pwrite_size] at hi
  rw [pwrite_byte]
  split at hi
  · rename_i hl; subst hl; rw [if_neg (by simp)]; exact h i hi
  · rw [if_neg (by omega)]; exact h i (by omega)

theorem getD_append_right' (a b : List UInt8) (i : Nat) (h : a.length ≤ i) : (a ++ b).getD i 0 = b.getD (i - a.length) 0 := by
  simp [List.getD, List.getElem?_append_right h]

theorem getD_append_left' (a b : List UInt8) (i : Nat) (h : i < a.length) : (a ++ b).getD i 0 = a.getD i 0 := by
  simp [List.getD, List.getElem?_append_left h]

theorem pwrite_pwrite (f : File) (off : Nat) (a b : List UInt8) (ha : a ≠ []) :
    pwrite (pwrite f off a) (off + a.length) b = pwrite f off (a ++ b) := by
  apply file_ext
  · simp only [pwrite_size, List.append_eq_nil_iff, if_neg ha, List.length_append]
    by_cases hb : b = []
    · subst hb; simp [ha]
    · rw [if_neg hb, if_neg (by simp [ha])]; omega
  · intro i
    rw [pwrite_byte, pwrite_byte, pwrite_byte]
    by_cases h1 : off + a.length ≤ i ∧ i < off + a.length + b.length
    · rw [if_pos h1, if_pos (by rw [List.length_append]; omega), getD_append_right' _ _ _ (by omega)]
      congr 1; omega
    · rw [if_neg h1]
      by_cases h2 : off ≤ i ∧ i < off + a.length
      · rw [if_pos h2, if_pos (by rw [List.length_append]; omega), getD_append_left' _ _ _ (by omega)]
      · rw [if_neg h2, if_neg (by rw [List.length_append]; omega)]

theorem slice_add (buf : List UInt8) (pos a b : Nat) :
    (buf.drop pos).take (a + b) = (buf.drop pos).take a ++ (buf.drop (pos + a)).take b := by
  rw [List.take_add, List.drop_drop]

theorem writeLoop_spec (os : Nat → Sys) (buf : List UInt8) : ∀ (fuel c : Nat) (f : File) (pos off bytes : Nat),
    bytes < fuel → pos + bytes ≤ buf.length →
    writeLoop os fuel c f buf pos off bytes = .done (pwrite f off ((buf.drop pos).take bytes)) buf ∨
    ∃ k, k < bytes ∧ writeLoop os fuel c f buf pos off bytes = .throws (pwrite f off ((buf.drop pos).take k)) buf ∧
      (2 ^ 63 < off + bytes ∨ ∃ c', c ≤ c' ∧ c' < c + bytes ∧ ((os c').seekFails = true ∨ (os c').rc = none ∨ (os c').rc = some 0)) := by
  intro fuel
  induction fuel with
  | zero => intro c f pos off bytes h; omega
  | succ fuel ih =>
    intro c f pos off bytes hf hl
    have h0 : pwrite f off ((buf.drop pos).take 0) = f := by simp [pwrite]
    by_cases hb : bytes = 0
    · left; subst hb; rw [h0]; simp [writeLoop]
    by_cases hs : (os c).seekFails = true ∨ 2 ^ 63 ≤ off
    · right
      refine ⟨0, by omega, ?_, ?_⟩
      · rw [h0]; unfold writeLoop; rw [if_neg hb, if_pos hs]
      · rcases hs with hs | hs
        · exact .inr ⟨c, by omega, by omega, .inl hs⟩
        · exact .inl (by omega)
    cases hrc : (os c).rc with
    | none =>
      right
      refine ⟨0, by omega, ?_, .inr ⟨c, by omega, by omega, .inr (.inl hrc)⟩⟩
      rw [h0]; unfold writeLoop; rw [if_neg hb, if_neg hs]; simp only [hrc]
    | some k =>
      by_cases hz : min k bytes = 0
      · right
        refine ⟨0, by omega, ?_, .inr ⟨c, by omega, by omega, .inr (.inr (by rw [hrc]; congr 1; omega))⟩⟩
        rw [h0]; unfold writeLoop; rw [if_neg hb, if_neg hs]; simp only [hrc]; rw [if_pos hz]
      have hun : writeLoop os (fuel + 1) c f buf pos off bytes =
          writeLoop os fuel (c + 1) (pwrite f off ((buf.drop pos).take (min k bytes))) buf (pos + min k bytes) (off + min k bytes) (bytes - min k bytes) := by
        conv => lhs; unfold writeLoop
        rw [if_neg hb, if_neg hs]; simp only [hrc]; rw [if_neg hz]
      rw [hun]
      generalize hr : min k bytes = rc at *
      have hlen : ((buf.drop pos).take rc).length = rc := by simp; omega
      have hne : (buf.drop pos).take rc ≠ [] := by intro e; rw [e] at hlen; simp at hlen; omega
      have hjoin : ∀ n, pwrite (pwrite f off ((buf.drop pos).take rc)) (off + rc) ((buf.drop (pos + rc)).take n) = pwrite f off ((buf.drop pos).take (rc + n)) := by
        intro n
        have := pwrite_pwrite f off ((buf.drop pos).take rc) ((buf.drop (pos + rc)).take n) hne
        rw [hlen] at this
        rw [this, slice_add]
      rcases ih (c + 1) (pwrite f off ((buf.drop pos).take rc)) (pos + rc) (off + rc) (bytes - rc) (by omega) (by omega) with h | ⟨k', hk', h, hor⟩
      · left; rw [h, hjoin]; congr 3; omega
      · right
        refine ⟨rc + k', by omega, by rw [h, hjoin], ?_⟩
        rcases hor with h | ⟨c', h1, h2, h3⟩
        · exact .inl (by omega)
        · exact .inr ⟨c', by omega, by omega, h3⟩

/-! ### Names -/

def digitVal (c : Char) : Nat := c.toNat - 48

def val (l : List Char) : Nat := l.foldl (fun a c => 10 * a + digitVal c) 0

theorem val_snoc (l : List Char) (c : Char) : val (l ++ [c]) = 10 * val l + digitVal c := by simp [val]

theorem digitVal_ofNat (d : Nat) (h : d < 10) : digitVal (Char.ofNat (48 + d)) = d := by
  have : ∀ d : Fin 10, digitVal (Char.ofNat (48 + d.val)) = d.val := by decide
  exact this ⟨d, h⟩

theorem val_decimal : ∀ (fuel n : Nat), n < fuel → val (decimal fuel n) = n := by
  intro fuel
  induction fuel with
  | zero => intro n h; omega
  | succ fuel ih =>
    intro n h
    rw [decimal, val_snoc, digitVal_ofNat _ (by omega)]
    by_cases hn : n < 10
    · rw [if_pos hn]; simp [val]; omega
    · rw [if_neg hn, ih _ (by omega)]; omega

theorem val_zeros (k : Nat) (l : List Char) : val (List.replicate k '0' ++ l) = val l := by
  induction k with
  | zero => simp
  | succ k ih =>
    rw [List.replicate_succ, List.cons_append]
    have : val ('0' :: (List.replicate k '0' ++ l)) = val (List.replicate k '0' ++ l) := by
      simp [val, digitVal]
    rw [this, ih]

theorem val_padded (w n : Nat) : val (padded w n) = n := by
  unfold padded
  simp only
  rw [val_zeros, val_decimal _ _ (by omega)]

theorem length_decimal : ∀ (fuel n w : Nat), n < 10 ^ (w + 1) → (decimal fuel n).length ≤ w + 1 := by
  intro fuel
  induction fuel with
  | zero => intro n w h; simp [decimal]
  | succ fuel ih =>
    intro n w h
    rw [decimal, List.length_append]
    by_cases hn : n < 10
    · rw [if_pos hn]; simp
    · rw [if_neg hn]
      cases w with
      | zero => omega
      | succ w =>
        have := ih (n / 10) w (by rw [Nat.div_lt_iff_lt_mul (by omega)]; rw [Nat.pow_succ] at h; exact h)
        simp; omega

theorem length_padded {n : Nat} (h : n < 2 ^ 64) : (padded 20 n).length = 20 := by
  unfold padded
  have := length_decimal (n + 1) n 19 (by omega)
  simp
  omega

theorem name_inj {p p' : List Char} {o o' : Nat} (h : o < 2 ^ 64) (h' : o' < 2 ^ 64)
    (e : filenameForBlock p o = filenameForBlock p' o') : p = p' ∧ o = o' := by
  unfold filenameForBlock at e
  obtain ⟨h1, h2⟩ := List.append_inj' e (by rw [length_padded h, length_padded h'])
  obtain ⟨h3, _⟩ := List.append_inj' h1 rfl
  refine ⟨h3, ?_⟩
  rw [← val_padded 20 o, h2, val_padded]

theorem name_ne_lock {p : List Char} {o : Nat} (h : o < 2 ^ 64) : filenameForBlock p o ≠ lockName p := by
  intro e
  have := congrArg List.length e
  unfold filenameForBlock lockName at this
  simp only [List.length_append, length_padded h] at this
  have e1 : "_fpb_".toList.length = 5 := by decide
  have e2 : "_fpb_lock".toList.length = 9 := by decide
  omega

/-! ### File per block -/

theorem fs_set_other {fs : FS} {n m : List Char} {f : Option File} (h : m ≠ n) : fs.set n f m = fs m := by
  simp [FS.set, h]

theorem fpbServe_other (mode : Mode) (os : FpbOs) (pre : List Char) (fs : FS) (write : Bool) (buf : List UInt8) (off bytes : Nat)
    (name : List Char) (h : name ≠ filenameForBlock pre off) : (fpbServe mode os pre fs write buf off bytes).fs name = fs name := by
  unfold fpbServe
  simp only
  generalize ho : openFile mode (fs (filenameForBlock pre off)) = opened
  split
  · rfl
  cases opened with
  | none => rfl
  | some f0 =>
    simp only
    cases setSize mode.rdonly os.truncFails f0 bytes with
    | none => exact fs_set_other h
    | some f1 =>
      simp only
      split
      · exact fs_set_other h
      split
      · exact fs_set_other h
      · exact fs_set_other h
      · rfl

theorem truncate_wf (f : File) (n : Nat) : Wf (truncate f n) := by
  intro i hi
  simp only [truncate] at *
  rw [if_neg (by omega)]

/-- A file that is exactly the bytes `d`. -/
def fileOf (d : List UInt8) : File := { size := d.length, byte := fun i => d.getD i 0 }

theorem fileOf_wf (d : List UInt8) : Wf (fileOf d) := by
  intro i hi
  simp only [fileOf] at *
  simp [List.getD, List.getElem?_eq_none hi]

theorem truncate_fileOf (d : List UInt8) : truncate (fileOf d) d.length = fileOf d := by
  refine file_ext (show d.length = d.length from rfl) ?_
  intro i
  simp only [truncate, fileOf]
  split
  · rfl
  · rename_i h; simp [List.getD, List.getElem?_eq_none (Nat.le_of_not_lt h)]

theorem pread_fileOf (d : List UInt8) : pread (fileOf d) 0 d.length = d := by
  apply List.ext_getElem?
  intro i
  by_cases hi : i < d.length
  · rw [pread_get _ _ _ _ hi]; simp [fileOf, List.getD, hi]
  · rw [List.getElem?_eq_none (by rw [length_pread]; omega), List.getElem?_eq_none (by omega)]

theorem pwrite_all (f : File) (d : List UInt8) (h : f.size = d.length) (hw : Wf f) : pwrite f 0 d = fileOf d := by
  apply file_ext
  · rw [pwrite_size]
    split
    · exact h
    · simp [fileOf]; omega
  · intro i
    rw [pwrite_byte]
    split
    · simp [fileOf]
    · rename_i hi
      rw [hw i (by omega)]
      simp [fileOf, List.getD, List.getElem?_eq_none (show d.length ≤ i by omega)]

/-- A write that does not throw leaves exactly its data. -/
theorem fpb_write_ok {mode : Mode} (os : FpbOs) (pre : List Char) (fs : FS) (buf : List UInt8) (off : Nat)
    (hm : mode.rdonly = false) (h : (fpbServe mode os pre fs true buf off buf.length).threw = false) :
    (fpbServe mode os pre fs true buf off buf.length).fs (filenameForBlock pre off) = some (fileOf buf) := by
  revert h
  unfold fpbServe
  simp only
  generalize ho : openFile mode (fs (filenameForBlock pre off)) = opened
  split
  · intro h; simp at h
  cases opened with
  | none => intro h; simp at h
  | some f0 =>
    by_cases ht : os.truncFails = true
    · simp [setSize, hm, ht]
    · have hset : setSize false os.truncFails f0 buf.length = some (truncate f0 buf.length) := by simp [setSize, hm, ht]
      have hspec := writeLoop_spec os.sys buf (buf.length + 1) 0 (truncate f0 buf.length) 0 0 buf.length (by omega) (by omega)
      rcases hspec with h | ⟨k, _, h, _⟩
      · have h' : serveWrite os.sys (truncate f0 buf.length) buf 0 buf.length = _ := h
        have hp : pwrite (truncate f0 buf.length) 0 ((buf.drop 0).take buf.length) = fileOf buf := by
          rw [List.drop_zero, List.take_length]; exact pwrite_all _ buf rfl (truncate_wf _ _)
        rw [hp] at h'
        simp [hm, hset, h', FS.set]
      · have h' : serveWrite os.sys (truncate f0 buf.length) buf 0 buf.length = _ := h
        simp [hm, hset, h']

/-- A read of a file that is exactly `d`: the file stays, and unless it throws `d` is delivered. -/
theorem fpb_read {mode : Mode} (os : FpbOs) (pre : List Char) (fs : FS) (buf d : List UInt8) (off : Nat)
    (hm : mode.trunc = false) (hl : d.length ≤ buf.length) (hd : fs (filenameForBlock pre off) = some (fileOf d)) :
    (fpbServe mode os pre fs false buf off d.length).fs (filenameForBlock pre off) = some (fileOf d) ∧
    ((fpbServe mode os pre fs false buf off d.length).threw = false →
      (fpbServe mode os pre fs false buf off d.length).buf = store buf 0 d) := by
  have hspec := readLoop_spec os.sys (fileOf_wf d) (d.length + 1) 0 buf 0 0 d.length (by omega) (by omega)
  rw [pread_fileOf] at hspec
  unfold fpbServe
  simp only [hd, openFile, hm]
  split
  · exact ⟨hd, by simp⟩
  simp only [setSize]
  by_cases hr : mode.rdonly = true
  · simp only [hr]
    simp only [serveRead]
    rcases hspec with h | ⟨k, _, h, _⟩
    · simp [h, FS.set]
    · simp [h, FS.set]
  · by_cases ht : os.truncFails = true
    · simp [hr, ht, FS.set]
    · simp only [hr, ht, truncate_fileOf]
      simp only [serveRead]
      rcases hspec with h | ⟨k, _, h, _⟩
      · simp [h, FS.set, truncate_fileOf]
      · simp [h, FS.set, truncate_fileOf]

end Foxxll.Files
