/-
Helper lemmas for the buffered streams.
-/
import Verif.Model.Streams
import Verif.Props.BufWriter
import Verif.Props.Prefetcher
set_option linter.unusedSimpArgs false
set_option linter.unusedVariables false

namespace Foxxll.Stream

variable {α : Type}

/-! ### The writer below an output stream -/

theorem submitOne_frame {s s' : BufWriter.St (List α)} {c : Nat} (h : BufWriter.submitOne s c = some s') :
    s'.bufs = s.bufs ∧ s'.written = s.written ∧ s'.held = s.held ∧ s'.pc = s.pc := by
  unfold BufWriter.submitOne at h
  split at h
  · exact absurd h (by simp)
  · split at h
    · exact absurd h (by simp)
    · simp only [Option.some.injEq] at h; subst h; exact ⟨rfl, rfl, rfl, rfl⟩

/-- Steps inside of the writer do not touch the buffers. -/
theorem work_frame {n wbs : Nat} {s s' : BufWriter.St (List α)} {p : Option Nat} {c : Nat}
    (h : BufWriter.work n wbs s p c = some s') : s'.bufs = s.bufs ∧ s'.written = s.written ∧ s.pc ≠ .idle ∧
      (s.held = [] → (s.pc = .flushing ∨ s.pc = .draining → s'.held = [] ∧ (s'.pc = .draining ∨ s'.pc = .idle ∨ s'.pc = .flushing)) ∧
        (s.pc ≠ .flushing → s.pc ≠ .draining → (∃ x, s'.pc = .idle ∧ s'.held = [x]) ∨
          (s'.held = [] ∧ s'.pc ≠ .idle ∧ s'.pc ≠ .flushing ∧ s'.pc ≠ .draining))) := by
  unfold BufWriter.work at h
  split at h
  · exact absurd h (by simp)
  · rename_i b bid hpc
    split at h <;> (simp only [Option.some.injEq] at h; subst h; simp [hpc, BufWriter.enqueue])
  · rename_i b bid hpc
    split at h
    · simp only [Option.some.injEq] at h; subst h; simp [hpc, BufWriter.enqueue]
    · obtain ⟨h1, h2, h3, h4⟩ := submitOne_frame h
      simp [h1, h2, h3, h4, hpc]
  · rename_i hpc
    rw [Option.bind_eq_some_iff] at h
    obtain ⟨s1, h1, h2⟩ := h
    have e1 : s1.bufs = s.bufs ∧ s1.written = s.written ∧ s1.held = s.held := by
      cases p with
      | none => simp only [BufWriter.pollStage, Option.some.injEq] at h1; subst h1; exact ⟨rfl, rfl, rfl⟩
      | some i =>
        simp only [BufWriter.pollStage] at h1
        split at h1
        · exact absurd h1 (by simp)
        · split at h1
          · simp only [Option.some.injEq] at h1; subst h1; exact ⟨rfl, rfl, rfl⟩
          · exact absurd h1 (by simp)
    have e2 : s'.bufs = s1.bufs ∧ s'.written = s1.written ∧ s'.pc = .idle ∧ ∃ x, s'.held = s1.held ++ [x] := by
      unfold BufWriter.takeStage at h2
      split at h2
      · simp only [Option.some.injEq] at h2; subst h2; exact ⟨rfl, rfl, rfl, _, rfl⟩
      · split at h2
        · exact absurd h2 (by simp)
        · split at h2
          · simp only [Option.some.injEq] at h2; subst h2; exact ⟨rfl, rfl, rfl, _, rfl⟩
          · exact absurd h2 (by simp)
    obtain ⟨x, hx⟩ := e2.2.2.2
    refine ⟨e2.1.trans e1.1, e2.2.1.trans e1.2.1, by simp [hpc], ?_⟩
    intro hh
    refine ⟨by simp [hpc], fun _ _ => .inl ⟨x, e2.2.2.1, ?_⟩⟩
    rw [hx, e1.2.2, hh]; rfl
  · rename_i hpc
    split at h
    · simp only [Option.some.injEq] at h; subst h; simp [hpc]
    · obtain ⟨h1, h2, h3, h4⟩ := submitOne_frame h
      simp [h1, h2, h3, h4, hpc]
  · rename_i hpc
    split at h
    · simp only [Option.some.injEq] at h; subst h; simp [hpc]
    · exact absurd h (by simp)

/-- Invariant of the output stream. -/
structure OInv (c : OCfg) (s : OSt α) : Prop where
  reach : BufWriter.Reach c.n c.wbs false BufWriter.Legal1 s.w
  el : s.elem < c.size
  len : ∀ b, (s.w.bufs b).length = c.size
  bids : s.w.written.map (·.1) = c.bids.take s.nbid
  nb : s.nbid ≤ c.bids.length
  wl : ∀ w ∈ s.w.written, w.2.length = c.size
  /-- inside of a method of the writer (not in its destructor) -/
  busy : s.w.pc ≠ .idle → s.elem = 0 ∧ s.w.held = []
  op : s.closed = false → s.w.pc = .idle → s.w.held = [s.blk]
  op' : s.closed = false → s.w.pc ≠ .flushing ∧ s.w.pc ≠ .draining
  cl : s.closed = true → s.elem = 0 ∧ s.w.held = [] ∧ (s.w.pc = .flushing ∨ s.w.pc = .draining ∨ s.w.pc = .idle)
  out : s.out = (s.w.written.map (·.2)).flatten ++ (s.w.bufs s.blk).take s.elem
  fin : s.closed = true → s.w.pc = .idle → s.w.busy = [] ∧ s.w.batch = []

theorem drain_frame {n wbs : Nat} {s s' : BufWriter.St (List α)} {p : Option Nat} {c : Nat}
    (h : BufWriter.work n wbs s p c = some s') (h0 : s.pc = .flushing ∨ s.pc = .draining) (h1 : s'.pc = .idle) :
    s.pc = .draining ∧ s'.busy = [] ∧ s'.batch = s.batch := by
  unfold BufWriter.work at h
  rcases h0 with h0 | h0
  · simp only [h0] at h
    split at h
    · simp only [Option.some.injEq] at h; subst h; simp at h1
    · obtain ⟨_, _, _, h4⟩ := submitOne_frame h
      rw [h4, h0] at h1; simp at h1
  · simp only [h0] at h
    split at h
    · simp only [Option.some.injEq] at h; subst h; exact ⟨h0, rfl, rfl⟩
    · exact absurd h (by simp)

theorem wbs_pos (c : OCfg) : 0 < c.wbs := (BufWriter.C18_ostream c.nbuffers).1

theorem oinit_inv (c : OCfg) (hs : 0 < c.size) (bufs : Nat → List α) (bids : Nat → BufWriter.Bid) (blk : Nat)
    (hb : ∀ b, (bufs b).length = c.size) : OInv c (OSt.init c bufs bids blk) := by
  have h : BufWriter.Reach c.n c.wbs false BufWriter.Legal1 (OSt.init c bufs bids blk).w :=
    BufWriter.Reach.next .callGet (BufWriter.Reach.start bufs bids) rfl rfl
  constructor <;> simp_all [OSt.init, BufWriter.init]

theorem passBlock_inv {c : OCfg} {s s' : OSt α} (h : passBlock c s = .ok s') (hs : 0 < c.size)
    (reach : BufWriter.Reach c.n c.wbs false BufWriter.Legal1 s.w)
    (len : ∀ b, (s.w.bufs b).length = c.size)
    (bids : s.w.written.map (·.1) = c.bids.take s.nbid)
    (wl : ∀ w ∈ s.w.written, w.2.length = c.size)
    (hc : s.closed = false) (hheld : s.w.held = [s.blk])
    (out : s.out = (s.w.written.map (·.2)).flatten ++ s.w.bufs s.blk) : OInv c s' ∧ s'.out = s.out ∧ s'.calls = s.calls := by
  unfold passBlock at h
  split at h
  · exact absurd h (by simp)
  · rename_i bid hbid
    split at h
    · exact absurd h (by simp)
    · rename_i w hw
      simp only [Res.ok.injEq] at h
      subst h
      have hr := BufWriter.Reach.next (.callWrite s.blk bid) reach hheld hw
      simp only [BufWriter.step] at hw
      split at hw
      · simp only [Option.some.injEq] at hw
        subst hw
        obtain ⟨hlt, _⟩ := List.getElem?_eq_some_iff.1 hbid
        refine ⟨⟨hr, hs, len, ?_, hlt, ?_, ?_, ?_, ?_, ?_, ?_, fun h => absurd h (by simp [hc])⟩, rfl, rfl⟩
        · rw [List.map_append, bids, List.take_add_one, hbid]; rfl
        · intro w hw
          rcases List.mem_append.1 hw with hw | hw
          · exact wl w hw
          · rw [List.mem_singleton.1 hw]; exact len _
        · intro _; exact ⟨rfl, by simp [hheld]⟩
        · intro _ h1; exact absurd h1 (by simp)
        · intro _; simp
        · intro h1; rw [hc] at h1; exact absurd h1 (by simp)
        · simp [out]
      · exact absurd hw (by simp)

theorem ostep_inv {c : OCfg} (hs : 0 < c.size) {s s' : OSt α} (hi : OInv c s) {op : OOp α}
    (h : oStep c s op = .ok s') : OInv c s' := by
  cases op with
  | call k =>
    simp only [oStep] at h
    split at h
    · rename_i hpc
      have hheld := hi.op hpc.2 hpc.1
      cases k with
      | assign x =>
        simp only at h
        split at h
        · split at h
          · exact absurd h (by simp)
          · rename_i w hw
            simp only [Res.ok.injEq] at h
            subst h
            have hr := BufWriter.Reach.next (.fill s.blk ((s.w.bufs s.blk).set s.elem x)) hi.reach hheld hw
            simp only [BufWriter.step] at hw
            split at hw
            · simp only [Option.some.injEq] at hw
              subst hw
              refine ⟨hr, hi.el, ?_, hi.bids, hi.nb, hi.wl, hi.busy, hi.op, hi.op', hi.cl, ?_, hi.fin⟩
              · intro b
                simp only [BufWriter.upd]
                split
                · simp [hi.len]
                · exact hi.len b
              · simp only [BufWriter.upd, if_pos]
                rw [hi.out]
                congr 1
                rw [List.take_set_of_le (Nat.le_refl _)]
            · exact absurd hw (by simp)
        · exact absurd h (by simp)
      | advance =>
        simp only at h
        have hlt : s.elem < (s.w.bufs s.blk).length := by rw [hi.len]; exact hi.el
        have hout : s.out ++ ((s.w.bufs s.blk)[s.elem]?).toList =
            (s.w.written.map (·.2)).flatten ++ (s.w.bufs s.blk).take (s.elem + 1) := by
          rw [hi.out, List.take_add_one, List.append_assoc]
        split at h
        · rename_i hge
          refine (passBlock_inv h hs hi.reach hi.len hi.bids hi.wl hpc.2 hheld ?_).1
          show s.out ++ ((s.w.bufs s.blk)[s.elem]?).toList = _
          rw [hout, List.take_of_length_le]
          rw [hi.len]; omega
        · rename_i hge
          simp only [Res.ok.injEq] at h
          subst h
          refine ⟨hi.reach, by simp only; omega, hi.len, hi.bids, hi.nb, hi.wl, ?_, hi.op, hi.op', ?_, hout, hi.fin⟩
          · intro h1; exact absurd hpc.1 h1
          · intro h1
            have h2 : s.closed = true := h1
            rw [hpc.2] at h2; exact absurd h2 (by simp)
      | flush =>
        simp only at h
        refine (passBlock_inv h hs hi.reach hi.len hi.bids hi.wl hpc.2 hheld ?_).1
        show s.out ++ (s.w.bufs s.blk).drop s.elem = _
        rw [hi.out, List.append_assoc, List.take_append_drop]
      | close =>
        simp only at h
        split at h
        · rename_i he
          split at h
          · exact absurd h (by simp)
          · rename_i w hw
            simp only [Res.ok.injEq] at h
            subst h
            have hr := BufWriter.Reach.next .callFlush hi.reach trivial hw
            simp only [BufWriter.step] at hw
            split at hw
            · simp only [Option.some.injEq] at hw
              subst hw
              exact ⟨hr, hi.el, hi.len, hi.bids, hi.nb, hi.wl, fun _ => ⟨he, rfl⟩, fun h => absurd h (by simp),
                fun h => absurd h (by simp), fun _ => ⟨he, rfl, .inl rfl⟩, hi.out, fun _ h => absurd h (by simp)⟩
            · exact absurd hw (by simp)
        · exact absurd h (by simp)
    · exact absurd h (by simp)
  | work p ch =>
    simp only [oStep] at h
    split at h
    · exact absurd h (by simp)
    · rename_i w hw
      have hr := BufWriter.Reach.next (.work p ch) hi.reach trivial hw
      simp only [BufWriter.step] at hw
      obtain ⟨f1, f2, f3, f4⟩ := work_frame hw
      obtain ⟨he, hheld⟩ := hi.busy f3
      obtain ⟨f5, f6⟩ := f4 hheld
      have hlen : ∀ b, (w.bufs b).length = c.size := by rw [f1]; exact hi.len
      have hbids : w.written.map (·.1) = c.bids.take s.nbid := by rw [f2]; exact hi.bids
      have hwl : ∀ x ∈ w.written, x.2.length = c.size := by rw [f2]; exact hi.wl
      have hout : s.out = (w.written.map (·.2)).flatten := by
        rw [f2, hi.out, he]; simp
      by_cases hc : s.closed = true
      · have hpc : s.w.pc = .flushing ∨ s.w.pc = .draining := by
          rcases (hi.cl hc).2.2 with h | h | h
          · exact .inl h
          · exact .inr h
          · exact absurd h f3
        obtain ⟨g1, g2⟩ := f5 hpc
        rw [g1] at h
        simp only [List.getLast?_nil, Res.ok.injEq] at h
        subst h
        refine ⟨hr, hi.el, hlen, hbids, hi.nb, hwl, fun _ => ⟨he, g1⟩, ?_, ?_, fun _ => ⟨he, g1, ?_⟩, ?_, ?_⟩
        · intro h; simp only at h; rw [hc] at h; exact absurd h (by simp)
        · intro h; simp only at h; rw [hc] at h; exact absurd h (by simp)
        · rcases g2 with h | h | h
          · exact .inr (.inl h)
          · exact .inr (.inr h)
          · exact .inl h
        · simp only [he, List.take_zero, List.append_nil]; exact hout
        · intro _ hid
          obtain ⟨e1, e2, e3⟩ := drain_frame hw hpc hid
          exact ⟨e2, e3.trans ((BufWriter.reach_inv (wbs_pos c) BufWriter.legal1_legal hi.reach).dr e1)⟩
      · have hc' : s.closed = false := by simpa using hc
        obtain ⟨q1, q2⟩ := hi.op' hc'
        rcases f6 q1 q2 with ⟨x, g1, g2⟩ | ⟨g1, g2, g3, g4⟩
        · rw [g2] at h
          simp only [List.getLast?_singleton, Res.ok.injEq] at h
          subst h
          refine ⟨hr, hi.el, hlen, hbids, hi.nb, hwl, fun h => absurd g1 h, fun _ _ => g2, fun _ => by simp [g1],
            fun h => absurd hc' (by simp only at h; rw [h]; simp), ?_, fun h => absurd hc' (by simp only at h; rw [h]; simp)⟩
          simp only [he, List.take_zero, List.append_nil]; exact hout
        · rw [g1] at h
          simp only [List.getLast?_nil, Res.ok.injEq] at h
          subst h
          refine ⟨hr, hi.el, hlen, hbids, hi.nb, hwl, fun _ => ⟨he, g1⟩, fun _ h => absurd h g2, fun _ => ⟨g3, g4⟩,
            fun h => absurd hc' (by simp only at h; rw [h]; simp), ?_, fun h => absurd hc' (by simp only at h; rw [h]; simp)⟩
          simp only [he, List.take_zero, List.append_nil]; exact hout
  | done b =>
    simp only [oStep] at h
    split at h
    · exact absurd h (by simp)
    · rename_i w hw
      simp only [Res.ok.injEq] at h
      subst h
      have hr := BufWriter.Reach.next (.done b) hi.reach trivial hw
      simp only [BufWriter.step] at hw
      split at hw
      · simp only [Option.some.injEq] at hw
        subst hw
        exact ⟨hr, hi.el, hi.len, hi.bids, hi.nb, hi.wl, hi.busy, hi.op, hi.op', hi.cl, hi.out, hi.fin⟩
      · exact absurd hw (by simp)

theorem oreach_inv {c : OCfg} (hs : 0 < c.size) {s : OSt α} (h : OReach c s) : OInv c s := by
  induction h with
  | start bufs bids blk hb => exact oinit_inv c hs bufs bids blk hb
  | next op _ hstep ih => exact ostep_inv hs ih hstep

/-- The calls of a client that only uses `os << x`. -/
def putCalls (xs : List α) : List (Call α) := xs.flatMap fun x => [.assign x, .advance]

/-- What the calls made so far mean for the output. -/
structure Sync (s : OSt α) : Prop where
  even : ∀ xs, s.calls = putCalls xs → s.out = xs
  odd : ∀ xs x, s.calls = putCalls xs ++ [.assign x] → s.w.pc = .idle ∧ s.out = xs ∧ (s.w.bufs s.blk)[s.elem]? = some x
  clo : ∀ xs, s.calls = putCalls xs ++ [.close] → s.out = xs

theorem putCalls_snoc (xs : List α) (x : α) : putCalls (xs ++ [x]) = putCalls xs ++ [.assign x, .advance] := by
  simp [putCalls, List.flatMap_append]

theorem putCalls_cases (xs : List α) : putCalls xs = [] ∧ xs = [] ∨
    ∃ ys x, xs = ys ++ [x] ∧ putCalls xs = putCalls ys ++ [.assign x, .advance] := by
  rcases List.eq_nil_or_concat xs with h | ⟨ys, x, h⟩
  · left; simp [h, putCalls]
  · right; exact ⟨ys, x, by simpa using h, by rw [h, List.concat_eq_append, putCalls_snoc]⟩

theorem snoc_put {l : List (Call α)} {k : Call α} {xs : List α} (h : l ++ [k] = putCalls xs) :
    ∃ ys x, xs = ys ++ [x] ∧ l = putCalls ys ++ [.assign x] ∧ k = .advance := by
  rcases putCalls_cases xs with ⟨h1, _⟩ | ⟨ys, x, h1, h2⟩
  · rw [h1] at h; simp at h
  · refine ⟨ys, x, h1, ?_⟩
    rw [h2] at h
    have : l ++ [k] = (putCalls ys ++ [.assign x]) ++ [.advance] := by simpa using h
    have := List.append_inj' this rfl
    exact ⟨this.1, by simpa using this.2⟩

theorem ostep_sync {c : OCfg} (hs : 0 < c.size) {s s' : OSt α} (hi : OInv c s) (hy : Sync s) {op : OOp α}
    (h : oStep c s op = .ok s') : Sync s' := by
  have hi' := ostep_inv hs hi h
  cases op with
  | call k =>
    simp only [oStep] at h
    split at h
    · rename_i hpc
      have hheld := hi.op hpc.2 hpc.1
      cases k with
      | assign x =>
        simp only at h
        split at h
        · rename_i hlt
          split at h
          · exact absurd h (by simp)
          · rename_i w hw
            simp only [Res.ok.injEq] at h
            subst h
            simp only [BufWriter.step] at hw
            split at hw
            · simp only [Option.some.injEq] at hw
              subst hw
              refine ⟨?_, ?_, ?_⟩
              · intro xs h
                obtain ⟨_, _, _, _, h⟩ := snoc_put h
                exact absurd h (by simp)
              · intro xs y h
                have h2 := List.append_inj' (s₁ := s.calls) (t₁ := [Call.assign x]) h rfl
                have h3 : x = y := by simpa using h2.2
                refine ⟨hpc.1, hy.even xs h2.1, ?_⟩
                simp only [BufWriter.upd, if_pos]
                rw [List.getElem?_set_self (by simpa using hlt), h3]
              · intro xs h
                have h2 := List.append_inj' (s₁ := s.calls) (t₁ := [Call.assign x]) h rfl
                exact absurd h2.2 (by simp)
            · exact absurd hw (by simp)
        · exact absurd h (by simp)
      | advance =>
        simp only at h
        have key : s'.calls = s.calls ++ [.advance] ∧ s'.out = s.out ++ ((s.w.bufs s.blk)[s.elem]?).toList := by
          split at h
          · have hout : s.out ++ ((s.w.bufs s.blk)[s.elem]?).toList =
                (s.w.written.map (·.2)).flatten ++ (s.w.bufs s.blk).take (s.elem + 1) := by
              rw [hi.out, List.take_add_one, List.append_assoc]
            rename_i hge
            obtain ⟨_, h1, h2⟩ := passBlock_inv h hs hi.reach hi.len hi.bids hi.wl hpc.2 hheld (by
              show s.out ++ ((s.w.bufs s.blk)[s.elem]?).toList = _
              rw [hout, List.take_of_length_le]
              rw [hi.len]; omega)
            exact ⟨h2, h1⟩
          · simp only [Res.ok.injEq] at h
            subst h
            exact ⟨rfl, rfl⟩
        refine ⟨?_, ?_, ?_⟩
        · intro xs h
          rw [key.1] at h
          obtain ⟨ys, x, h1, h2, _⟩ := snoc_put h
          obtain ⟨_, h3, h4⟩ := hy.odd ys x h2
          rw [key.2, h3, h4, h1]; rfl
        · intro xs x h
          rw [key.1] at h
          have h2 := List.append_inj' h rfl
          exact absurd h2.2 (by simp)
        · intro xs h
          rw [key.1] at h
          have h2 := List.append_inj' h rfl
          exact absurd h2.2 (by simp)
      | flush =>
        simp only at h
        obtain ⟨_, h1, h2⟩ := passBlock_inv h hs hi.reach hi.len hi.bids hi.wl hpc.2 hheld (by
              show s.out ++ (s.w.bufs s.blk).drop s.elem = _
              rw [hi.out, List.append_assoc, List.take_append_drop])
        have h2 : s'.calls = s.calls ++ [.flush] := h2
        refine ⟨?_, ?_, ?_⟩
        · intro xs h
          rw [h2] at h
          obtain ⟨_, _, _, _, h⟩ := snoc_put h
          exact absurd h (by simp)
        · intro xs x h
          rw [h2] at h
          exact absurd (List.append_inj' h rfl).2 (by simp)
        · intro xs h
          rw [h2] at h
          exact absurd (List.append_inj' h rfl).2 (by simp)
      | close =>
        simp only at h
        split at h
        · split at h
          · exact absurd h (by simp)
          · rename_i w hw
            simp only [Res.ok.injEq] at h
            subst h
            refine ⟨?_, ?_, ?_⟩
            · intro xs h
              obtain ⟨_, _, _, _, h⟩ := snoc_put h
              exact absurd h (by simp)
            · intro xs x h
              have h2 := List.append_inj' (s₁ := s.calls) (t₁ := [Call.close]) h rfl
              exact absurd h2.2 (by simp)
            · intro xs h
              have h2 := List.append_inj' (s₁ := s.calls) (t₁ := [Call.close]) h rfl
              exact hy.even xs h2.1
        · exact absurd h (by simp)
    · exact absurd h (by simp)
  | work p ch =>
    simp only [oStep] at h
    split at h
    · exact absurd h (by simp)
    · rename_i w hw
      simp only [BufWriter.step] at hw
      obtain ⟨f1, f2, f3, _⟩ := work_frame hw
      have key : s'.calls = s.calls ∧ s'.out = s.out := by
        split at h <;> (simp only [Res.ok.injEq] at h; subst h; exact ⟨rfl, rfl⟩)
      refine ⟨?_, ?_, ?_⟩
      · intro xs h; rw [key.1] at h; rw [key.2]; exact hy.even xs h
      · intro xs x h
        -- no assignment is pending inside of a method
        rw [key.1] at h
        exact absurd (hy.odd xs x h).1 f3
      · intro xs h; rw [key.1] at h; rw [key.2]; exact hy.clo xs h
  | done b =>
    simp only [oStep] at h
    split at h
    · exact absurd h (by simp)
    · rename_i w hw
      simp only [Res.ok.injEq] at h
      subst h
      simp only [BufWriter.step] at hw
      split at hw
      · simp only [Option.some.injEq] at hw
        subst hw
        exact ⟨hy.even, hy.odd, hy.clo⟩
      · exact absurd hw (by simp)

theorem oreach_sync {c : OCfg} (hs : 0 < c.size) {s : OSt α} (h : OReach c s) : Sync s := by
  induction h with
  | start bufs bids blk hb =>
    refine ⟨?_, ?_, ?_⟩
    · intro xs h
      rcases putCalls_cases xs with ⟨_, h1⟩ | ⟨ys, x, h1, h2⟩
      · rw [h1]; rfl
      · rw [h2] at h; simp [OSt.init] at h
    · intro xs x h; simp [OSt.init] at h
    · intro xs h; simp [OSt.init] at h
  | next op hr hstep ih => exact ostep_sync hs (oreach_inv hs hr) ih hstep

/-- Writes to distinct blocks: every block holds what was written to it. -/
theorem diskAfter_mem {ws : List (BufWriter.Bid × List α)} (hn : (ws.map (·.1)).Nodup) {b : BufWriter.Bid} {v : List α}
    (hm : (b, v) ∈ ws) (d : BufWriter.Bid → List α) : diskAfter d ws b = v := by
  have keep : ∀ (ws : List (BufWriter.Bid × List α)) (d : BufWriter.Bid → List α), b ∉ ws.map (·.1) →
      diskAfter d ws b = d b := by
    intro ws
    induction ws with
    | nil => intro d _; rfl
    | cons w ws ih =>
      intro d hnm
      simp only [List.map_cons, List.mem_cons, not_or] at hnm
      show diskAfter _ ws b = _
      rw [ih _ hnm.2]
      simp [hnm.1]
  induction ws generalizing d with
  | nil => simp at hm
  | cons w ws ih =>
    simp only [List.map_cons, List.nodup_cons] at hn
    show diskAfter _ ws b = v
    rcases List.mem_cons.1 hm with h | h
    · subst h
      rw [keep ws _ hn.1]
      simp
    · exact ih hn.2 h _

/-! ### The prefetcher below an input stream -/

/-- The elements of a block in the order in which the stream delivers them. -/
def deliver (rev : Bool) (l : List α) : List α := if rev then l.reverse else l

/-- Number of elements of the current block already delivered. -/
def pos (rev : Bool) (size e : Nat) : Nat := if rev then size - 1 - e else e

/-- What the first `k` blocks deliver. -/
def upTo (rev : Bool) (c : Prefetch.Cfg (List α)) (k : Nat) : List α :=
  (List.range k).flatMap fun j => deliver rev (c.disk j)

theorem upTo_succ (rev : Bool) (c : Prefetch.Cfg (List α)) (k : Nat) :
    upTo rev c (k + 1) = upTo rev c k ++ deliver rev (c.disk k) := by
  simp [upTo, List.range_succ, List.flatMap_append]

inductive IShape (rev : Bool) (size : Nat) (c : Prefetch.Cfg (List α)) (s : ISt α) : Prop
  | idle (k : Nat) : s.pc = .idle → s.notFinished = true → s.p.waiting = none → s.p.held = [(k, s.blk)] →
      s.p.returned.length = k + 1 → s.got = upTo rev c k ++ (deliver rev (c.disk k)).take (pos rev size s.elem) →
      IShape rev size c s
  | consuming (k : Nat) : s.pc = .consuming → s.p.waiting = none → s.p.held = [(k, s.blk)] →
      s.p.returned.length = k + 1 → s.elem = firstElem rev size → s.got = upTo rev c (k + 1) → IShape rev size c s
  | waiting : s.pc = .waiting → s.p.waiting = some s.p.returned.length → s.p.held = [] →
      s.elem = firstElem rev size → s.got = upTo rev c s.p.returned.length → IShape rev size c s
  | finished : s.pc = .idle → s.notFinished = false → s.p.waiting = none → s.p.held = [] →
      s.got = upTo rev c c.seqLength → IShape rev size c s

/-- Invariant of the input streams. -/
structure IInv (rev : Bool) (size : Nat) (c : Prefetch.Cfg (List α)) (s : ISt α) : Prop where
  reach : Prefetch.Reach c false s.p
  el : s.elem < size
  shape : IShape rev size c s

theorem pos_first (rev : Bool) (size : Nat) (h : 0 < size) : firstElem rev size < size ∧ pos rev size (firstElem rev size) = 0 := by
  cases rev <;> simp [firstElem, pos] <;> omega

theorem refill_held {c : Prefetch.Cfg (List α)} {s s' : Prefetch.St (List α)} {b : Nat} (h : Prefetch.refill c s b = .ok s') :
    s'.held = s.held.filter (fun p => p.2 != b) := by
  unfold Prefetch.refill at h
  simp only at h
  split at h
  · split at h
    · exact absurd h (by simp)
    · split at h
      · split at h
        · exact absurd h (by simp)
        · simp only [Prefetch.Res.ok.injEq] at h; subst h; rfl
      · exact absurd h (by simp)
  · simp only [Prefetch.Res.ok.injEq] at h; subst h; rfl

/-- The I/O threads do not touch what the consumer sees. -/
theorem device_frame {c : Prefetch.Cfg (List α)} {s s' : Prefetch.St (List α)} {op : Prefetch.Op} (h : Prefetch.step c s op = .ok s')
    (hop : (∃ b, op = .copy b) ∨ (∃ b, op = .signal b) ∨ ∃ b, op = .finish b) :
    s'.waiting = s.waiting ∧ s'.held = s.held ∧ s'.returned = s.returned := by
  rcases hop with ⟨b, rfl⟩ | ⟨b, rfl⟩ | ⟨b, rfl⟩ <;>
  · simp only [Prefetch.step] at h
    split at h
    · simp only [Prefetch.Res.ok.injEq] at h; subst h; exact ⟨rfl, rfl, rfl⟩
    · exact absurd h (by simp)

theorem IShape.congr {rev : Bool} {size : Nat} {c : Prefetch.Cfg (List α)} {s : ISt α} (h : IShape rev size c s)
    {p : Prefetch.St (List α)} (h1 : p.waiting = s.p.waiting) (h2 : p.held = s.p.held) (h3 : p.returned = s.p.returned) :
    IShape rev size c { s with p := p } := by
  cases h with
  | idle k a1 a2 a3 a4 a5 a6 => exact .idle k a1 a2 (h1.trans a3) (h2.trans a4) (by rw [h3]; exact a5) a6
  | consuming k a1 a3 a4 a5 a6 a7 => exact .consuming k a1 (h1.trans a3) (h2.trans a4) (by rw [h3]; exact a5) a6 a7
  | waiting a1 a3 a4 a6 a7 =>
    exact .waiting a1 (by simp only [h3]; exact h1.trans a3) (h2.trans a4) a6 (by simp only [h3]; exact a7)
  | finished a1 a2 a3 a4 a6 => exact .finished a1 a2 (h1.trans a3) (h2.trans a4) a6

theorem iinit_inv {rev : Bool} {size : Nat} (hs : 0 < size) {c : Prefetch.Cfg (List α)} (hg : Prefetch.Good c) (blk : Nat) :
    ∃ s, iInit rev size c blk = .ok s ∧ IInv rev size c s := by
  obtain ⟨p, hp, hi⟩ := Prefetch.init_spec hg
  have hr := Prefetch.Reach.start (sp := false) hp
  have hp0 : p.waiting = none ∧ p.nextconsume = 0 ∧ p.returned = [] ∧ p.held = [] := by
    unfold Prefetch.init at hp
    rw [if_pos ⟨hg.pos, hg.bufs⟩] at hp
    obtain ⟨s', h1, _, _, e2, _, e4, e5, e6⟩ := Prefetch.initLoop_spec hg c.nread 0
      { nextread := c.nread, nextconsume := 0, bufs := fun _ => none, reqs := fun _ => none,
        compl := fun _ => false, pref := fun _ => none, waiting := none, submitted := [],
        returned := [], held := [] } ⟨by simp, by simp, by simp, by simp⟩ (by simp [Prefetch.Cfg.nread]; omega)
    rw [hp] at h1
    simp only [Prefetch.Res.ok.injEq] at h1
    subst h1
    exact ⟨e4, e2, e5, e6⟩
  obtain ⟨q1, q2, q3, q4⟩ := hp0
  have hpull : Prefetch.step c p .pull = .ok (Prefetch.beginWait p) := by
    simp [Prefetch.step, q1, q2, hg.pos]
  refine ⟨{ p := Prefetch.beginWait p, elem := firstElem rev size, blk := blk, notFinished := true,
            pc := .waiting, got := [] }, ?_, ?_, ?_, ?_⟩
  · simp [iInit, hp, hpull]
  · exact Prefetch.Reach.next .pull hr (by simp [Prefetch.Legal, q2, hg.pos]) (by simp) hpull
  · exact (pos_first rev size hs).1
  · exact .waiting rfl (by simp [Prefetch.beginWait, q2, q3]) q4 rfl (by simp [Prefetch.beginWait, q3, upTo])

theorem deliver_get {rev : Bool} {size e : Nat} {l : List α} (hl : l.length = size) (he : e < size) {x : α}
    (hx : l[e]? = some x) : (deliver rev l)[pos rev size e]? = some x := by
  cases rev with
  | false => simpa [deliver, pos] using hx
  | true =>
    simp only [deliver, pos, if_true]
    rw [List.getElem?_reverse (by omega), hl]
    rw [show size - 1 - (size - 1 - e) = e by omega]
    exact hx

theorem nextElem_some {rev : Bool} {size e e' : Nat} (he : e < size) (h : nextElem rev size e = some e') :
    e' < size ∧ pos rev size e' = pos rev size e + 1 := by
  cases rev with
  | false =>
    simp only [nextElem, Bool.false_eq_true, if_false] at h
    split at h
    · exact absurd h (by simp)
    · simp only [Option.some.injEq] at h; simp only [pos, Bool.false_eq_true, if_false]; omega
  | true =>
    simp only [nextElem, if_true] at h
    split at h
    · exact absurd h (by simp)
    · simp only [Option.some.injEq] at h; simp only [pos, if_true]; omega

theorem nextElem_none {rev : Bool} {size e : Nat} (he : e < size) (h : nextElem rev size e = none) :
    pos rev size e + 1 = size := by
  cases rev with
  | false =>
    simp only [nextElem, Bool.false_eq_true, if_false] at h
    split at h
    · simp only [pos, Bool.false_eq_true, if_false]; omega
    · exact absurd h (by simp)
  | true =>
    simp only [nextElem, if_true] at h
    split at h
    · simp only [pos, if_true]; omega
    · exact absurd h (by simp)

theorem deliver_length (rev : Bool) (l : List α) : (deliver rev l).length = l.length := by
  cases rev <;> simp [deliver]

theorem advance_ok {rev : Bool} {size : Nat} {c : Prefetch.Cfg (List α)} (ho : Prefetch.OrderOk c)
    (hd : ∀ k, k < c.seqLength → (c.disk k).length = size) {s : ISt α} (hi : IInv rev size c s)
    {k : Nat} (h1 : s.pc = .idle) (h2 : s.notFinished = true) (h3 : s.p.held = [(k, s.blk)]) (h4 : s.p.returned.length = k + 1) :
    ∃ x, (c.disk k)[s.elem]? = some x ∧ s.p.bufs s.blk = some (c.disk k) := by
  have hpi := Prefetch.reach_inv ho.good hi.reach
  obtain ⟨_, hc⟩ := Prefetch.C15_order_and_content_partial c ho s.p hi.reach
  obtain ⟨hb, _⟩ := hc k s.blk (by rw [h3]; simp)
  have hk : k < c.seqLength := by
    have := hpi.nc
    rcases hpi.wait with h | h <;> omega
  have := hd k hk
  exact ⟨_, List.getElem?_eq_getElem (by rw [this]; exact hi.el), hb⟩

theorem istep_inv {rev : Bool} {size : Nat} (hs : 0 < size) {c : Prefetch.Cfg (List α)} (ho : Prefetch.OrderOk c)
    (hd : ∀ k, k < c.seqLength → (c.disk k).length = size) {s s' : ISt α} (hi : IInv rev size c s) {op : IOp}
    (hsp : op ≠ .spurious) (h : iStep rev size c s op = .ok s') : IInv rev size c s' := by
  have hpi := Prefetch.reach_inv ho.good hi.reach
  have hfirst := pos_first rev size hs
  cases op with
  | advance =>
    simp only [iStep] at h
    split at h
    · rename_i hpc
      split at h
      · rename_i hnf
        cases hi.shape with
        | idle k a1 a2 a3 a4 a5 a6 =>
          obtain ⟨x, hx, hb⟩ := advance_ok ho hd hi a1 a2 a4 a5
          rw [hb] at h
          simp only [hx] at h
          have hk : k < c.seqLength := by
            have := hpi.nc
            rcases hpi.wait with h | h <;> omega
          have hlen := hd k hk
          have hget := deliver_get (rev := rev) hlen hi.el hx
          split at h
          · rename_i e he
            obtain ⟨q1, q2⟩ := nextElem_some hi.el he
            simp only [Res.ok.injEq] at h
            subst h
            refine ⟨hi.reach, q1, .idle k a1 a2 a3 a4 a5 ?_⟩
            simp only [q2, List.take_add_one, hget, a6, List.append_assoc]
            rfl
          · rename_i he
            have q2 := nextElem_none hi.el he
            simp only [Res.ok.injEq] at h
            subst h
            refine ⟨hi.reach, hfirst.1, .consuming k rfl a3 a4 a5 rfl ?_⟩
            simp only [upTo_succ, a6, List.append_assoc]
            congr 1
            have : (deliver rev (c.disk k)).take (pos rev size s.elem + 1) = deliver rev (c.disk k) := by
              apply List.take_of_length_le
              rw [deliver_length, hlen]; omega
            rw [List.take_add_one, hget] at this
            exact this
        | consuming k a1 => rw [hpc] at a1; exact absurd a1 (by simp)
        | waiting a1 => rw [hpc] at a1; exact absurd a1 (by simp)
        | finished a1 a2 => rw [hnf] at a2; exact absurd a2 (by simp)
      · exact absurd h (by simp)
    · exact absurd h (by simp)
  | consume =>
    simp only [iStep] at h
    split at h
    · rename_i hpc
      cases hi.shape with
      | idle k a1 => rw [hpc] at a1; exact absurd a1 (by simp)
      | waiting a1 => rw [hpc] at a1; exact absurd a1 (by simp)
      | finished a1 => rw [hpc] at a1; exact absurd a1 (by simp)
      | consuming k a1 a3 a4 a5 a6 a7 =>
        cases hp : Prefetch.step c s.p (.consumed s.blk) with
        | ub => rw [hp] at h; exact absurd h (by simp [lift])
        | assertFail => rw [hp] at h; exact absurd h (by simp [lift])
        | blocked => rw [hp] at h; exact absurd h (by simp [lift])
        | ok p =>
          rw [hp] at h
          simp only [lift, Res.ok.injEq] at h
          have hr := Prefetch.Reach.next (.consumed s.blk) hi.reach ⟨k, by rw [a4]; simp⟩ (by simp) hp
          have hpi' := Prefetch.reach_inv ho.good hr
          obtain ⟨r, hrf, hri, hrw, hrn, hrr⟩ := Prefetch.refill_spec ho.good hpi a3 (k := k) (b := s.blk) (by rw [a4]; simp)
          have hheld : r.held = [] := by rw [refill_held hrf, a4]; simp
          have hnc : r.nextconsume = k + 1 := by
            rw [hrn]
            rcases hpi.wait with h | h
            · omega
            · rw [a3] at h; simp at h
          have hpr : p = (if c.seqLength ≤ r.nextconsume then r else Prefetch.beginWait r) := by
            simp only [Prefetch.step, a3, hrf] at hp
            split at hp
            · exact absurd hp (by simp)
            · split at hp
              · exact absurd hp (by simp)
              · split at hp
                · split at hp
                  · rename_i hle; simp only [Prefetch.Res.ok.injEq] at hp; rw [if_pos hle]; exact hp.symm
                  · rename_i hle; simp only [Prefetch.Res.ok.injEq] at hp; rw [if_neg hle]; exact hp.symm
                · split at hp
                  · rename_i hle; simp only [Prefetch.Res.ok.injEq] at hp; rw [if_pos hle]; exact hp.symm
                  · rename_i hle; simp only [Prefetch.Res.ok.injEq] at hp; rw [if_neg hle]; exact hp.symm
                · exact absurd hp (by simp)
          by_cases hle : c.seqLength ≤ r.nextconsume
          · rw [if_pos hle] at hpr
            subst hpr
            rw [hrw] at h
            simp only [Option.isSome_none, Bool.false_eq_true, if_false] at h
            subst h
            refine ⟨hr, hi.el, .finished rfl rfl hrw hheld ?_⟩
            have : c.seqLength = k + 1 := by
              have := hri.nc
              omega
            simp only [this]; exact a7
          · rw [if_neg hle] at hpr
            subst hpr
            simp only [Prefetch.beginWait, Option.isSome_some, if_true] at h
            subst h
            refine ⟨hr, hi.el, .waiting rfl ?_ hheld a6 ?_⟩
            · simp only [hnc, hrr, a5]
            · simp only [hrr, a5]; exact a7
    · exact absurd h (by simp)
  | wake =>
    simp only [iStep] at h
    split at h
    · rename_i hpc
      cases hi.shape with
      | idle k a1 => rw [hpc] at a1; exact absurd a1 (by simp)
      | consuming k a1 => rw [hpc] at a1; exact absurd a1 (by simp)
      | finished a1 => rw [hpc] at a1; exact absurd a1 (by simp)
      | waiting a1 a3 a4 a6 a7 =>
        cases hp : Prefetch.step c s.p .wake with
        | ub => rw [hp] at h; exact absurd h (by simp [lift])
        | assertFail => rw [hp] at h; exact absurd h (by simp [lift])
        | blocked => rw [hp] at h; exact absurd h (by simp [lift])
        | ok p =>
          rw [hp] at h
          simp only [lift, Res.ok.injEq] at h
          have hr := Prefetch.Reach.next .wake hi.reach trivial (by simp) hp
          simp only [Prefetch.step, a3] at hp
          split at hp
          · rename_i hcomp
            obtain ⟨b, _, _, _, _, e5, _⟩ := Prefetch.handOut_inv hpi a3 hcomp
            rw [e5] at hp
            simp only [Prefetch.Res.ok.injEq] at hp
            subst hp
            subst h
            refine ⟨hr, hi.el, .idle s.p.returned.length rfl rfl rfl ?_ ?_ ?_⟩
            · simp [a4, lastBuf]
            · simp
            · simp only [a6, hfirst.2, List.take_zero, List.append_nil]; exact a7
          · exact absurd hp (by simp)
    · exact absurd h (by simp)
  | spurious => exact absurd rfl hsp
  | copy b =>
    simp only [iStep] at h
    cases hp : Prefetch.step c s.p (.copy b) with
    | ub => rw [hp] at h; exact absurd h (by simp [lift])
    | assertFail => rw [hp] at h; exact absurd h (by simp [lift])
    | blocked => rw [hp] at h; exact absurd h (by simp [lift])
    | ok p =>
      rw [hp] at h
      simp only [lift, Res.ok.injEq] at h
      subst h
      obtain ⟨h1, h2, h3⟩ := device_frame hp (.inl ⟨b, rfl⟩)
      exact ⟨Prefetch.Reach.next (.copy b) hi.reach trivial (by simp) hp, hi.el, hi.shape.congr h1 h2 h3⟩
  | signal b =>
    simp only [iStep] at h
    cases hp : Prefetch.step c s.p (.signal b) with
    | ub => rw [hp] at h; exact absurd h (by simp [lift])
    | assertFail => rw [hp] at h; exact absurd h (by simp [lift])
    | blocked => rw [hp] at h; exact absurd h (by simp [lift])
    | ok p =>
      rw [hp] at h
      simp only [lift, Res.ok.injEq] at h
      subst h
      obtain ⟨h1, h2, h3⟩ := device_frame hp (.inr (.inl ⟨b, rfl⟩))
      exact ⟨Prefetch.Reach.next (.signal b) hi.reach trivial (by simp) hp, hi.el, hi.shape.congr h1 h2 h3⟩
  | finish b =>
    simp only [iStep] at h
    cases hp : Prefetch.step c s.p (.finish b) with
    | ub => rw [hp] at h; exact absurd h (by simp [lift])
    | assertFail => rw [hp] at h; exact absurd h (by simp [lift])
    | blocked => rw [hp] at h; exact absurd h (by simp [lift])
    | ok p =>
      rw [hp] at h
      simp only [lift, Res.ok.injEq] at h
      subst h
      obtain ⟨h1, h2, h3⟩ := device_frame hp (.inr (.inr ⟨b, rfl⟩))
      exact ⟨Prefetch.Reach.next (.finish b) hi.reach trivial (by simp) hp, hi.el, hi.shape.congr h1 h2 h3⟩

theorem ireach_inv {rev : Bool} {size : Nat} (hs : 0 < size) {c : Prefetch.Cfg (List α)} (ho : Prefetch.OrderOk c)
    (hd : ∀ k, k < c.seqLength → (c.disk k).length = size) {s : ISt α} (h : IReach rev size c false s) :
    IInv rev size c s := by
  induction h with
  | start blk h =>
    obtain ⟨s', h1, h2⟩ := iinit_inv (rev := rev) hs ho.good blk
    rw [h] at h1
    simp only [Res.ok.injEq] at h1
    subst h1
    exact h2
  | next op _ hsp hstep ih => exact istep_inv hs ho hd ih (fun h => absurd (hsp h) (by simp)) hstep

end Foxxll.Stream
