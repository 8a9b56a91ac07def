import Verif.Proofs.StreamOpen
import Verif.Props.Config
import Verif.Props.Streams
/-
Property C128: an input stream finds the disks of its blocks.
-/
namespace Foxxll.StreamOpen

variable {α : Type}

open Foxxll.Config (Env Str Cfg Ids plainEnv)
open Foxxll.Stream (order IReach iStep ISt)

/-- The configuration with the default disk, after one file was created. -/
def oneFile : Cfg := (Config.assignId (Config.init plainEnv (Config.construct 0 0) none).1 (2 ^ 32 - 1)).2

theorem oneFile_ids : Ids plainEnv oneFile [0] := Ids.create (2 ^ 32 - 1) (Ids.start (c0 := Config.construct 0 0) none rfl rfl) (by decide)

/-- **C128 is false** (full statement: an input stream can be opened over any blocks, delivers their elements in order, and uses no more buffers than
two for each disk or the given number).  A file constructed with an explicit device id, not by `create_file`, is not known to the
configuration: a stream over two blocks of it fails an assertion. -/
theorem C128_false : ¬ ∀ (c : Cfg) (used : List Nat) (bs : List (Block Nat)), Ids plainEnv c used → bs ≠ [] →
    (∀ b ∈ bs, b.data.length = 1 ∧ b.dev < 2 ^ 32) →
    ∃ c' pc s, openStream plainEnv false 1 c none bs 4 (fun _ => false) (fun _ => 0) 0 = .opened c' pc s := by
  intro h
  obtain ⟨c', pc, s, e⟩ := h oneFile [0] [⟨5, [7]⟩, ⟨5, [8]⟩] oneFile_ids (by simp) (by simp)
  have e2 : openStream plainEnv false 1 oneFile none [⟨5, [7]⟩, ⟨5, [8]⟩] 4 (fun _ => false) (fun _ => 0) 0 = .assertFail oneFile := rfl
  rw [e2] at e
  cases e

/-- **C128 is false** also for a file made by `create_file` before the configuration was initialised: the constructor of the stream initialises it, which sets the
counter of the device ids back to 0. -/
theorem C128_early_false : ∃ (c0 c : Cfg) (id : Nat), Config.assignId (Config.construct 0 0) 3 = (id, c0) ∧
    openStream plainEnv false 1 c0 none [⟨id, [7]⟩] 4 (fun _ => false) (fun _ => 0) 0 = .assertFail (α := Nat) c :=
  ⟨_, (Config.init plainEnv (Config.assignId (Config.construct 0 0) 3).2 none).1, 3, rfl, rfl⟩

/-- **C128**, for blocks in files that were created through `create_file` after the configuration was initialised, or that have no device id (missing: see
`C128_false`, `C128_early_false`): the stream, forwards or reverse, can be opened with any number of buffers, whatever the unspecified choices of
the scheduling; without spurious wake-ups it delivers the elements of the blocks in order, all of them at its end, never gets stuck, and
can be advanced until its end. -/
theorem C128_partial {env : Env} {c : Cfg} {used : List Nat} (h : Ids env c used) (hu : ∀ i ∈ used, i < 2 ^ 32 - 2)
    (rev : Bool) {size : Nat} (hs : 0 < size) {bs : List (Block α)} (hb : bs ≠ []) (hsz : ∀ b ∈ bs, b.data.length = size)
    (hdev : ∀ b ∈ bs, b.dev ∈ used ∨ b.dev = 2 ^ 32 - 1) (found : Option (Option (List Str))) (nbuffers : Nat) (busy0 : Nat → Bool)
    (choice : Nat → Nat) (blk : Nat) :
    ∃ pc s0, openStream env rev size c found bs nbuffers busy0 choice blk = .opened c pc s0 ∧ IReach rev size pc false s0 ∧
      (0 < nbuffers → pc.nread = min bs.length (max (2 * c.disks.length) (nbuffers - 1))) ∧
      (nbuffers = 0 → bs.length < 2 ^ 64 → pc.nread = bs.length) ∧
      ∀ s, IReach rev size pc false s → s.got <+: order rev (bs.flatMap (·.data)) ∧
        (s.notFinished = false → s.pc = .idle → s.got = order rev (bs.flatMap (·.data))) ∧
        (s.pc ≠ .idle → ∃ op s', op ≠ .advance ∧ op ≠ .spurious ∧ iStep rev size pc s op = .ok s') ∧
        (s.pc = .idle → s.got ≠ order rev (bs.flatMap (·.data)) → ∃ s', iStep rev size pc s .advance = .ok s') := by
  obtain ⟨hi, hd⟩ := ids_spec h
  obtain ⟨hlt, _⟩ := Config.C39_partial h hu
  have hpos : 0 < c.disks.length := List.length_pos_iff.2 hd
  have hm : 0 < Stream.readBuffers c.disks.length nbuffers := by unfold Stream.readBuffers; omega
  have hlb : 0 < bs.length := List.length_pos_iff.2 hb
  have hll : (disksOf (order rev bs)).length = (order rev bs).length := by simp [disksOf]
  have hD : Sched.DisksOk (disksOf (order rev bs)) c.maxDev := by
    intro d hd
    obtain ⟨b, hbm, hbe⟩ := List.mem_map.1 hd
    rw [order_mem] at hbm
    split at hbe
    · cases hbe
    · rename_i hne
      simp only [Option.some.injEq] at hbe
      rcases hdev b hbm with h1 | h1
      · have := hlt _ h1
        omega
      · exact absurd h1 hne
  obtain ⟨seq, hseq, _⟩ := Sched.C13_permutation _ _ _ hm hD busy0 choice
  obtain ⟨ho, hwin⟩ := Prefetch.C15_schedule_ok _ _ _ hm (by rw [hll, order_length]; exact hlb) hD busy0 choice seq hseq
    (fun j => ((order rev bs)[j]?.map (·.data)).getD [])
  rw [hll] at ho
  obtain ⟨s0, hs0⟩ := iInit_spec (rev := rev) (size := size) (blk := blk) ho.good
  refine ⟨pcfg rev bs seq (Stream.readBuffers c.disks.length nbuffers), s0, ?_, IReach.start blk hs0, ?_, ?_, ?_⟩
  · unfold openStream Config.init
    simp only [hi, if_true, hseq]
    rw [hs0]
    rfl
  · intro hn
    simp only [Prefetch.Cfg.nread, pcfg, Stream.readBuffers, order_length]
    rw [if_neg (by omega)]
    omega
  · intro hn hl
    simp only [Prefetch.Cfg.nread, pcfg, Stream.readBuffers, order_length]
    rw [if_pos hn]
    omega
  · intro s hr
    have hdl : ∀ k, k < (pcfg rev bs seq (Stream.readBuffers c.disks.length nbuffers)).seqLength →
        ((pcfg rev bs seq (Stream.readBuffers c.disks.length nbuffers)).disk k).length = size := by
      intro k hk
      simp only [pcfg] at hk ⊢
      rw [List.getElem?_eq_getElem hk]
      exact hsz _ ((order_mem rev bs _).1 (List.getElem_mem hk))
    obtain ⟨h1, h2, h3⟩ := Stream.C16_input_partial rev size hs _ ho hdl s hr
    have e := expected_eq rev bs seq (Stream.readBuffers c.disks.length nbuffers)
    unfold pcfg at e
    rw [e] at h1 h2 h3
    refine ⟨h1, h2, Stream.C16_input_progress_partial rev size hs _ ho hwin hdl s hr, ?_⟩
    intro hpc hne
    obtain ⟨a, b⟩ := h3 .advance (by simp)
    cases hc : iStep rev size (pcfg rev bs seq (Stream.readBuffers c.disks.length nbuffers)) s .advance with
    | ok s' => exact ⟨s', rfl⟩
    | ub => exact absurd hc a
    | assertFail => exact absurd (b hc).2 hne
    | blocked =>
      exfalso
      simp only [iStep, hpc, if_true] at hc
      repeat' split at hc
      all_goals cases hc

/-- **C128 is false** for the number of buffers: with `nbuffers = 0` the stream takes as many buffers as there are blocks, however many. -/
theorem C128_buffers_false (bs : List (Block Nat)) (hb : bs ≠ []) (hsz : ∀ b ∈ bs, b.data.length = 1 ∧ b.dev = 0) (hl : bs.length < 2 ^ 64) :
    ∃ pc s, openStream plainEnv false 1 oneFile none bs 0 (fun _ => false) (fun _ => 0) 0 = .opened oneFile pc s ∧ pc.nread = bs.length := by
  obtain ⟨pc, s, h1, _, _, h2, _⟩ := C128_partial oneFile_ids (by simp) false (by decide : 0 < 1) hb (fun b h => (hsz b h).1)
    (fun b h => Or.inl (by rw [(hsz b h).2]; simp)) none 0 (fun _ => false) (fun _ => 0) 0
  exact ⟨pc, s, h1, h2 rfl hl⟩

/-- With one disk, seven blocks take seven buffers. -/
example : ∃ pc s, openStream plainEnv false 1 oneFile none (List.replicate 7 ⟨0, [1]⟩) 0 (fun _ => false) (fun _ => 0) 0 = .opened (α := Nat) oneFile pc s ∧
    pc.nread = 7 ∧ oneFile.disks.length = 1 := by
  obtain ⟨pc, s, h1, h2⟩ := C128_buffers_false (List.replicate 7 ⟨0, [1]⟩) (by simp) (by simp) (by simp)
  exact ⟨pc, s, h1, h2, rfl⟩

/-- The hypotheses of `C128_partial`: three blocks in two files, one of them without a device id. -/
example : Ids plainEnv oneFile [0] ∧ (∀ i ∈ [0], i < 2 ^ 32 - 2) ∧
    ∀ b ∈ ([⟨0, [1, 2]⟩, ⟨2 ^ 32 - 1, [3, 4]⟩, ⟨0, [5, 6]⟩] : List (Block Nat)), b.data.length = 2 ∧ (b.dev ∈ [0] ∨ b.dev = 2 ^ 32 - 1) :=
  ⟨oneFile_ids, by simp, by simp⟩

end Foxxll.StreamOpen
