import Verif.Proofs.MemFile
/-
Properties C33-C35 and C64: the file implementations.
-/
set_option linter.unusedSimpArgs false
set_option linter.unusedVariables false
namespace Foxxll.Files

/-! ### C33 -/

/-- C33, reading: for every file, offset, length and pattern of partial transfers, either the
buffer receives exactly the bytes of the file, zeros beyond its end, and nothing behind the range
is touched, or `io_error` is thrown; the file is unchanged either way. -/
theorem C33_read (os : Nat → Sys) {f : File} (hw : ∀ i, f.size ≤ i → f.byte i = 0) (buf : List UInt8) (off bytes : Nat) (hb : bytes ≤ buf.length) :
    match serveRead os f buf off bytes with
    | .done f' buf' => f' = f ∧ buf'.length = buf.length ∧
        ∀ i (h : i < buf.length), buf'[i]? = some (if i < bytes then (if off + i < f.size then f.byte (off + i) else 0) else buf[i])
    | .throws f' buf' => f' = f ∧ buf'.length = buf.length ∧ ∀ i, bytes ≤ i → buf'[i]? = buf[i]?
    | .fuel => False := by
  unfold serveRead
  rcases readLoop_spec os hw (bytes + 1) 0 buf 0 off bytes (by omega) (by omega) with h | ⟨k, hk, h, _⟩
  · rw [h]
    refine ⟨rfl, length_store _ _ _ (by rw [length_pread]; omega), ?_⟩
    intro i hi
    rw [store_get _ _ _ (by rw [length_pread]; omega), length_pread]
    by_cases h1 : i < bytes
    · rw [if_pos ⟨by omega, by omega⟩, if_pos h1, Nat.sub_zero, pread_get _ _ _ _ h1]
      split
      · rfl
      · rw [hw _ (by omega)]
    · rw [if_neg (by omega), if_neg h1, List.getElem?_eq_getElem hi]
  · rw [h]
    refine ⟨rfl, length_store _ _ _ (by rw [length_pread]; omega), ?_⟩
    intro i hi
    rw [store_get _ _ _ (by rw [length_pread]; omega), length_pread, if_neg (by omega)]

/-- C33, writing: either exactly the given bytes are stored at the given offset, the size grows if
needed and no other byte changes (a gap becomes zeros), or `io_error` is thrown and a prefix of the
data has been stored that way. -/
theorem C33_write (os : Nat → Sys) {f : File} (hw : ∀ i, f.size ≤ i → f.byte i = 0) (buf : List UInt8) (off bytes : Nat) (hb : bytes ≤ buf.length) :
    match serveWrite os f buf off bytes with
    | .done f' buf' => buf' = buf ∧ f'.size = (if bytes = 0 then f.size else max f.size (off + bytes)) ∧
        (∀ i (h : i < bytes), f'.byte (off + i) = buf[i]) ∧ (∀ i, i < off ∨ off + bytes ≤ i → f'.byte i = f.byte i)
    | .throws f' buf' => buf' = buf ∧ ∃ k, k < bytes ∧ f'.size = (if k = 0 then f.size else max f.size (off + k)) ∧
        (∀ i (h : i < k) (h' : i < buf.length), f'.byte (off + i) = buf[i]) ∧ (∀ i, i < off ∨ off + k ≤ i → f'.byte i = f.byte i)
    | .fuel => False := by
  unfold serveWrite
  have key : ∀ k, k ≤ buf.length → (pwrite f off ((buf.drop 0).take k)).size = (if k = 0 then f.size else max f.size (off + k)) ∧
      (∀ i (h : i < k) (h' : i < buf.length), (pwrite f off ((buf.drop 0).take k)).byte (off + i) = buf[i]) ∧
      (∀ i, i < off ∨ off + k ≤ i → (pwrite f off ((buf.drop 0).take k)).byte i = f.byte i) := by
    intro k hk
    have hl : ((buf.drop 0).take k).length = k := by simp; omega
    refine ⟨?_, ?_, ?_⟩
    · rw [pwrite_size, hl]
      by_cases h0 : k = 0
      · subst h0; simp
      · rw [if_neg h0, if_neg]
        intro e; rw [e] at hl; simp at hl; omega
    · intro i hi h'
      rw [pwrite_byte, hl, if_pos ⟨by omega, by omega⟩, Nat.add_sub_cancel_left]
      simp [List.getD, List.getElem?_take_of_lt hi, h']
    · intro i hi
      rw [pwrite_byte, hl, if_neg (by omega)]
  rcases writeLoop_spec os buf (bytes + 1) 0 f 0 off bytes (by omega) (by omega) with h | ⟨k, hk, h, _⟩
  · rw [h]
    obtain ⟨h1, h2, h3⟩ := key bytes hb
    exact ⟨rfl, h1, fun i hi => h2 i hi (by omega), h3⟩
  · rw [h]
    exact ⟨rfl, k, hk, key k (by omega)⟩

/-- C33: `io_error` is thrown exactly for a reason: if no call fails or transfers nothing, a write
is always carried out, and a read if it starts inside the file; a read that starts at or behind the
end throws. -/
theorem C33_errors (os : Nat → Sys) {f : File} (hw : ∀ i, f.size ≤ i → f.byte i = 0) (buf : List UInt8) (off bytes : Nat) (hb : bytes ≤ buf.length)
    (hg : Good os bytes) (ho : off + bytes ≤ 2 ^ 63) :
    (∃ f', serveWrite os f buf off bytes = .done f' buf) ∧
    (off < f.size → ∃ buf', serveRead os f buf off bytes = .done f buf') ∧
    (0 < bytes → f.size ≤ off → ∃ f' buf', serveRead os f buf off bytes = .throws f' buf') := by
  refine ⟨?_, ?_, ?_⟩
  · rcases writeLoop_spec os buf (bytes + 1) 0 f 0 off bytes (by omega) (by omega) with h | ⟨k, hk, h, hor⟩
    · exact ⟨_, h⟩
    · exfalso
      rcases hor with h | ⟨c, _, h2, h3⟩
      · omega
      · obtain ⟨g1, g2, j, g3, g4⟩ := hg c (by omega)
        rcases h3 with h3 | h3 | h3
        · rw [g1] at h3; cases h3
        · rw [g3] at h3; cases h3
        · rw [g3] at h3; injection h3; omega
  · intro hs
    rcases readLoop_spec os hw (bytes + 1) 0 buf 0 off bytes (by omega) (by omega) with h | ⟨k, hk, h, hor⟩
    · exact ⟨_, h⟩
    · exfalso
      rcases hor with h | h | ⟨c, _, h2, h3⟩
      · omega
      · omega
      · obtain ⟨g1, g2, j, g3, g4⟩ := hg c (by omega)
        rcases h3 with h3 | h3 | h3 | h3
        · rw [g1] at h3; cases h3
        · rw [g3] at h3; cases h3
        · rw [g3] at h3; injection h3; omega
        · rw [g2] at h3; cases h3
  · intro hb0 hs
    obtain ⟨g1, g2, j, g3, g4⟩ := hg 0 hb0
    refine ⟨f, buf, ?_⟩
    unfold serveRead readLoop
    rw [if_neg (by omega), if_neg (by simp [g1]; omega)]
    simp only [g3]
    rw [if_pos (by omega)]

/-- A transfer of no bytes, or a failing call, in the first round throws. -/
theorem C33_no_progress (os : Nat → Sys) (f : File) (buf : List UInt8) (off bytes : Nat) (hb : 0 < bytes)
    (h : (os 0).seekFails = true ∨ (os 0).rc = none ∨ (os 0).rc = some 0) :
    serveWrite os f buf off bytes = .throws f buf ∧ serveRead os f buf off bytes = .throws f buf := by
  have h0 : bytes ≠ 0 := by omega
  unfold serveWrite serveRead writeLoop readLoop
  by_cases hs : (os 0).seekFails = true ∨ 2 ^ 63 ≤ off
  · simp [h0, hs]
  · simp only [h0, hs, if_false]
    rcases h with h | h | h
    · exact absurd (Or.inl h) hs
    · simp [h]
    · simp [h]

/-- Ten bytes written in pieces of 3, into the middle of a file; read back in pieces of 4 and
beyond the end. -/
example : Good (fun _ => { rc := some 3 }) 10 ∧
    (match serveWrite (fun _ => { rc := some 3 }) { size := 2, byte := fun i => if i < 2 then 7 else 0 } [1, 2, 3, 4, 5, 6, 7, 8, 9, 10] 1 10 with
     | .done f' _ => match serveRead (fun _ => { rc := some 4 }) f' [0, 0, 0, 0, 0, 0, 9, 9, 9, 9] 6 9 with
       | .done _ b => b == [6, 7, 8, 9, 10, 0, 0, 0, 0, 9] && f'.size == 11
       | _ => false
     | _ => false) = true :=
  ⟨fun c _ => ⟨rfl, rfl, 3, rfl, by decide⟩, by decide⟩

/-! ### C34 -/

/-- C34 is false if memory runs out: `set_size` stores the null pointer together with the new size,
so a later access within `size()` is undefined (and the old content is lost). -/
theorem C34_false : ¬ ∀ (m : Mem) (off : Nat) (d : List UInt8) (n : Nat),
    m = Mem.init.setSize n none → off + d.length ≤ m.size → m.write off d ≠ .ub := by
  intro h
  exact h (Mem.init.setSize 1 none) 0 [5] 1 rfl (by decide) rfl

/-- C34 as far as it is true: for every history of accesses within the current size, as long as
memory is granted, no call is undefined, the size is as set last, and a read returns at each position
the byte written last, `set_size` preserving the common prefix.  Missing: failing allocations. -/
theorem C34_partial {m : Mem} {k : Known} (h : MReach m k) :
    m.size = k.size ∧ (∀ op, InRange k.size op → Granted op → ∃ r, m.step op = .ok r) ∧
    ∀ off n l, off + n ≤ k.size → m.read off n = .ok l →
      l.length = n ∧ ∀ i b, i < n → k.at_ (off + i) = some b → l[i]? = some b := by
  have hi := mem_reach h
  refine ⟨hi.size, ?_, ?_⟩
  · intro op hr hg
    obtain ⟨m', b, h1, _⟩ := mem_step hi hr hg
    exact ⟨_, h1⟩
  · intro off n l hr hl
    have hlen := hi.len
    unfold Mem.read at hl
    cases hp : m.ptr with
    | none =>
      rw [hp] at hl hlen
      simp only at hl
      simp at hlen
      have : n = 0 := by omega
      subst this
      simp at hl
      subst hl
      exact ⟨rfl, fun i b h => by omega⟩
    | some c =>
      rw [hp] at hl hlen
      simp only [Option.getD_some] at hl hlen
      rw [if_pos (by omega)] at hl
      injection hl with hl
      subst hl
      refine ⟨by simp; omega, ?_⟩
      intro i b hin hb
      have := hi.known _ _ hb
      rw [hp] at this
      rw [List.getElem?_take_of_lt hin, List.getElem?_drop]
      exact this

/-- Three bytes written, the file cut to four bytes and enlarged again, one byte overwritten: the
byte at position 1 is still known. -/
example : ∃ m k, MReach m k ∧ k.size = 9 ∧ k.at_ 1 = some 6 ∧ k.at_ 2 = some 8 ∧ k.at_ 5 = none :=
  ⟨_, _, .next (b := []) (.write 2 [8]) (.next (b := []) (.setSize 9 (some fun _ => 3)) (.next (b := []) (.setSize 4 (some fun _ => 3))
    (.next (b := []) (.write 0 [5, 6, 7]) (.next (b := []) (.setSize 6 (some fun _ => 3)) .start trivial (by simp [Granted]) rfl)
      (by simp [InRange, Known.step]) trivial rfl) trivial (by simp [Granted]) rfl) trivial (by simp [Granted]) rfl) (by simp [InRange, Known.step]) trivial rfl,
   rfl, rfl, rfl, rfl⟩

/-! ### C35 -/

/-- C35: the file names of different offsets, of different prefixes, and of the lock file differ. -/
theorem C35_names {p p' : List Char} {o o' : Nat} (h : o < 2 ^ 64) (h' : o' < 2 ^ 64) :
    (filenameForBlock p o = filenameForBlock p' o' ↔ p = p' ∧ o = o') ∧ filenameForBlock p o ≠ lockName p :=
  ⟨⟨name_inj h h', fun ⟨a, b⟩ => by rw [a, b]⟩, name_ne_lock h⟩

example : filenameForBlock "/d/x".toList 4096 = "/d/x_fpb_00000000000000004096".toList := by decide

/-- C35: serving or discarding one offset leaves the storage of every other offset, and every
other file, as it is - for every mode and every behaviour of the operating system. -/
theorem C35_independent (mode : Mode) (os : FpbOs) (p : List Char) (fs : FS) (write fails : Bool) (buf : List UInt8) (bytes : Nat)
    {off off' : Nat} (h : off < 2 ^ 64) (h' : off' < 2 ^ 64) (hne : off' ≠ off) :
    (fpbServe mode os p fs write buf off bytes).fs (filenameForBlock p off') = fs (filenameForBlock p off') ∧
    fpbDiscard p fs fails off (filenameForBlock p off') = fs (filenameForBlock p off') := by
  have hn : filenameForBlock p off' ≠ filenameForBlock p off := fun e => hne (name_inj h' h e).2
  refine ⟨fpbServe_other mode os p fs write buf off bytes _ hn, ?_⟩
  unfold fpbDiscard
  split
  · rfl
  · exact fs_set_other hn

/-- C35 is false as soon as a block is read with a smaller length than it was written with: the
read cuts the file, later reads find zeros. -/
theorem C35_false : ¬ ∀ (p : List Char) (fs : FS) (known : Nat → Option (List UInt8)) (off : Nat) (d buf : List UInt8) (os : FpbOs),
    FReach {} p (fun _ => True) fs known → off < 2 ^ 64 → known off = some d → d.length ≤ buf.length →
    (fpbServe {} os p fs false buf off d.length).threw = false → (fpbServe {} os p fs false buf off d.length).buf = store buf 0 d := by
  intro h
  have := h [] _ _ 0 [1, 2] [9, 9] okOs
    (.next (.read okOs [0] 0 1) (.next (.write okOs 0 [1, 2]) (.start (fun _ => none)) trivial (by decide)) trivial (by decide))
    (by decide) (by decide) (by decide) (by decide)
  revert this
  decide

/-- A second reason: opened with TRUNC, every access starts by emptying the file. -/
theorem C35_false_trunc : ∃ (fs : FS), FReach { trunc := true } [] (SameLength fun _ => 2) fs (lastWritten { trunc := true } [] (fun _ => none) (fun _ => none) (.write okOs 0 [1, 2])) ∧
    lastWritten { trunc := true } [] (fun _ => none) (fun _ => none) (.write okOs 0 [1, 2]) 0 = some [1, 2] ∧
    (fpbServe { trunc := true } okOs [] fs false [9, 9] 0 2).threw = false ∧ (fpbServe { trunc := true } okOs [] fs false [9, 9] 0 2).buf = [0, 0] :=
  ⟨_, .next (.write okOs 0 [1, 2]) (.start (fun _ => none)) rfl (by decide), by decide, by decide, by decide⟩

/-- C35 as far as it is true: if all accesses to one offset have the same length (as those of
blocks do) and the mode does not contain TRUNC, then after any history, with any failures and partial
transfers, a read at an offset either throws or returns the data of the last write there, whatever
happened at other offsets.  Missing: accesses of different lengths, where it is false. -/
theorem C35_partial {mode : Mode} {p : List Char} {len : Nat → Nat} {fs : FS} {known : Nat → Option (List UInt8)}
    (hm : mode.rdonly = false ∧ mode.trunc = false) (h : FReach mode p (SameLength len) fs known) {off : Nat} (ho : off < 2 ^ 64) {d : List UInt8}
    (hk : known off = some d) (os : FpbOs) (buf : List UInt8) (hb : d.length ≤ buf.length)
    (ht : (fpbServe mode os p fs false buf off d.length).threw = false) :
    (fpbServe mode os p fs false buf off d.length).buf = d ++ buf.drop d.length := by
  have inv : ∀ o, o < 2 ^ 64 → ∀ d, known o = some d → d.length = len o ∧ fs (filenameForBlock p o) = some (fileOf d) := by
    clear hk ht hb ho
    induction h with
    | start fs => intro o _ d h; cases h
    | @next fs known op _ hl hlt ih =>
      intro o hol d hd
      cases op with
      | write os' off' dat =>
        simp only [lastWritten] at hd
        by_cases e : o = off'
        · subst e
          rw [if_pos rfl] at hd
          split at hd
          · cases hd
          · rename_i hth
            injection hd with hd; subst hd
            exact ⟨hl, fpb_write_ok os' p fs _ o hm.1 (by simpa using hth)⟩
        · rw [if_neg e] at hd
          obtain ⟨h1, h2⟩ := ih o hol d hd
          refine ⟨h1, ?_⟩
          rw [← h2]
          exact (C35_independent mode os' p fs true false dat dat.length hlt hol e).1
      | read os' buf' off' n =>
        obtain ⟨h1, h2⟩ := ih o hol d hd
        refine ⟨h1, ?_⟩
        by_cases e : o = off'
        · subst e
          have : n = d.length := by rw [h1]; exact hl.1
          subst this
          exact (fpb_read os' p fs buf' d o hm.2 hl.2 h2).1
        · rw [← h2]
          exact (C35_independent mode os' p fs false false buf' n hlt hol e).1
      | discard fails off' =>
        simp only [lastWritten] at hd
        by_cases e : o = off'
        · rw [if_pos e] at hd; cases hd
        · rw [if_neg e] at hd
          obtain ⟨h1, h2⟩ := ih o hol d hd
          refine ⟨h1, ?_⟩
          rw [← h2]
          exact (C35_independent mode okOs p fs false fails [] 0 hlt hol e).2
  obtain ⟨h1, h2⟩ := inv off ho d hk
  have := (fpb_read os p fs buf d off hm.2 hb h2).2 ht
  rw [this]
  simp [store]

/-- Two blocks written and one of them discarded; the other is read. -/
example : ∃ fs known, FReach {} "x".toList (SameLength fun _ => 2) fs known ∧ known 4096 = some [1, 2] ∧ known 0 = none ∧
    (fpbServe {} okOs "x".toList fs false [9, 9, 9] 4096 2).threw = false :=
  ⟨_, _, .next (.discard false 0) (.next (.write okOs 0 [3, 4]) (.next (.write okOs 4096 [1, 2]) (.start (fun _ => none)) rfl (by decide)) rfl (by decide)) trivial (by decide),
    by decide, by decide, by decide⟩

/-! ### C64 -/

/-- C64 is false: a write through `mmap_file` that extends beyond the end of the file within its
last page returns normally, but the bytes behind the end are lost (the same `serve` of `syscall_file`
stores them). -/
theorem C64_false : ¬ ∀ (page : Nat) (f f' : File) (buf buf' : List UInt8) (off bytes : Nat), 0 < page → bytes ≤ buf.length →
    serveMmap page false false true f buf off bytes = .done f' buf' → ∀ i, i < bytes → f'.byte (off + i) = buf.getD i 0 := by
  intro h
  have := h 4096 { size := 1, byte := fun _ => 0 } (mapWrite { size := 1, byte := fun _ => 0 } 0 [5, 6]) [5, 6] [5, 6] 0 2 (by decide) (by decide) rfl 1 (by decide)
  revert this
  decide

/-- C64 as far as it is true: for a page-aligned, non-empty range inside the file, with no failing
call, `mmap_file` transfers exactly the bytes, as `syscall_file` would.  Missing: ranges that reach
beyond the end of the file (lost bytes, or SIGBUS). -/
theorem C64_partial {page : Nat} (hp : 0 < page) (f : File) (buf : List UInt8) (off bytes : Nat) (h0 : 0 < bytes) (ha : off % page = 0)
    (hs : off + bytes ≤ f.size) (hb : bytes ≤ buf.length) :
    (∃ buf', serveMmap page false false false f buf off bytes = .done f buf' ∧ buf'.length = buf.length ∧
      ∀ i (h : i < buf.length), buf'[i]? = some (if i < bytes then f.byte (off + i) else buf[i])) ∧
    (∃ f', serveMmap page false false true f buf off bytes = .done f' buf ∧ f'.size = f.size ∧
      (∀ i (h : i < bytes), f'.byte (off + i) = buf[i]) ∧ ∀ i, i < off ∨ off + bytes ≤ i → f'.byte i = f.byte i) := by
  have hup : f.size ≤ (f.size + page - 1) / page * page := by
    have h1 := Nat.div_add_mod (f.size + page - 1) page
    have h2 := Nat.mod_lt (f.size + page - 1) hp
    rw [Nat.mul_comm] at h1
    omega
  have hg1 : ¬ (bytes = 0 ∨ off % page ≠ 0 ∨ false = true) := by simp [ha]; omega
  have hg2 : ¬ ((f.size + page - 1) / page * page < off + bytes) := by omega
  constructor
  · refine ⟨store buf 0 (pread f off bytes), ?_, length_store _ _ _ (by rw [length_pread]; omega), ?_⟩
    · unfold serveMmap; rw [if_neg hg1, if_neg hg2]; rfl
    · intro i hi
      rw [store_get _ _ _ (by rw [length_pread]; omega), length_pread]
      by_cases h1 : i < bytes
      · rw [if_pos ⟨by omega, by omega⟩, if_pos h1, Nat.sub_zero, pread_get _ _ _ _ h1]
      · rw [if_neg (by omega), if_neg h1, List.getElem?_eq_getElem hi]
  · refine ⟨mapWrite f off (buf.take bytes), ?_, rfl, ?_, ?_⟩
    · unfold serveMmap; rw [if_neg hg1, if_neg hg2]; rfl
    · intro i hi
      have hl : (buf.take bytes).length = bytes := by simp; omega
      simp only [mapWrite, hl]
      rw [if_pos ⟨by omega, by omega, by omega⟩, Nat.add_sub_cancel_left]
      simp [List.getD, List.getElem?_take_of_lt hi, show i < buf.length by omega]
    · intro i hi
      have hl : (buf.take bytes).length = bytes := by simp; omega
      simp only [mapWrite, hl]
      rw [if_neg (by omega)]

/-- Beyond the last page the process is killed by SIGBUS. -/
theorem C64_sigbus {page : Nat} (f : File) (buf : List UInt8) (write : Bool) (off bytes : Nat) (h0 : 0 < bytes) (ha : off % page = 0)
    (hs : (f.size + page - 1) / page * page < off + bytes) : serveMmap page false false write f buf off bytes = .sigbus := by
  unfold serveMmap
  rw [if_neg (by simp [ha]; omega), if_pos hs]

example : (0 : Nat) < 4096 ∧ 8192 % 4096 = 0 ∧ 8192 + 3 ≤ 9000 ∧ (9000 + 4096 - 1) / 4096 * 4096 < 12288 + 1 := by decide

end Foxxll.Files
