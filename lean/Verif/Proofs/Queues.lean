/-
Invariants of the request queues.
-/
import Verif.Model.Queues
set_option linter.unusedSimpArgs false
set_option linter.unusedVariables false

namespace Foxxll.Queue

/-- Tokens taken from the semaphore by the worker and not used for a request. -/
def tok : WPc → Nat
  | .token | .putBack | .termSignal | .exit | .dead => 1
  | _ => 0

/-- Token of `stop_thread`. -/
def stp : SPc → Nat
  | .signalled | .joined => 1
  | _ => 0

structure Bal (k : Kind) (s : St) : Prop where
  bal : s.sem + tok s.wpc + s.nsig = s.wq.length + s.rq.length + s.ncw + stp s.spc
  run : s.spc = .none → s.ts = .running ∧ s.wpc ≠ .termWait ∧ s.wpc ≠ .termSignal ∧ s.wpc ≠ .exit ∧ s.wpc ≠ .dead
  stop : s.spc ≠ .none → s.nsig = 0 ∧ s.ncw = 0
  term : s.spc = .set ∨ s.spc = .signalled → (s.ts = .terminating ∧ s.wpc ≠ .dead) ∨ (s.ts = .terminated ∧ s.wpc = .dead)
  joined : s.spc = .joined → s.ts = .notRunning ∧ s.wpc = .dead
  lost : s.wpc = .exit ∨ s.wpc = .dead → s.wq.length + s.rq.length ≤ 1
  ts1 : s.wpc = .termSignal → 1 ≤ s.sem
  one : k = .oneQ → s.rq = [] ∧ s.phase = true
  nsig1 : k = .oneQ → s.nsig ≤ 1

theorem bal_init (k : Kind) : Bal k init := by
  constructor <;> simp [init, tok, stp]

theorem bal_step {k : Kind} {s s' : St} {op : Op} (h : Bal k s) (hl : Legal s op)
    (hs : step k s op = .ok s') : Bal k s' := by
  obtain ⟨bal, run, stop, term, joined, lost, ts1, one, nsig1⟩ := h
  cases op with
  | push r w =>
    simp only [Legal] at hl
    simp only [step, push] at hs
    split at hs
    · cases hs
    split at hs
    · cases hs
    rename_i h1 h2
    obtain ⟨hr, hn⟩ := hl
    obtain ⟨e1, e2, e3, e4, e5⟩ := run hn
    injection hs with hs
    subst hs
    cases k <;> cases w <;>
      simp [locked, toW] at h2 ⊢ <;>
      constructor <;> simp_all <;> omega
  | signal =>
    simp only [step] at hs
    split at hs
    · cases hs
    injection hs with hs
    subst hs
    rename_i h1
    have hn : s.spc = .none := by
      false_or_by_contra
      rename_i hn
      exact h1 (stop hn).1
    constructor <;> simp_all <;> omega
  | cancel r w =>
    simp only [Legal] at hl
    simp only [step, cancel] at hs
    split at hs
    · cases hs
    split at hs
    · cases hs
    rename_i h1 h2
    obtain ⟨hr, hn⟩ := hl
    obtain ⟨e1, e2, e3, e4, e5⟩ := run hn
    split at hs
    · rename_i h3
      injection hs with hs
      subst hs
      by_cases ht : toW k w
      · simp only [ht, if_true] at ⊢
        have hm : r ∈ s.wq := by simpa [qOf, ht] using h3
        have hlen := List.length_erase_of_mem hm
        have hpos := List.length_pos_of_mem hm
        constructor <;> simp_all <;> omega
      · simp only [ht] at ⊢
        have hm : r ∈ s.rq := by simpa [qOf, ht] using h3
        have hlen := List.length_erase_of_mem hm
        have hpos := List.length_pos_of_mem hm
        constructor <;> simp_all <;> omega
    · injection hs with hs
      subst hs
      constructor <;> simp_all
  | cancelTake =>
    simp only [step] at hs
    split at hs
    · cases hs
    injection hs with hs
    subst hs
    rename_i h1
    have hn : s.spc = .none := by
      false_or_by_contra
      rename_i hn
      exact h1 (.inl (stop hn).2)
    constructor <;> simp_all <;> omega
  | work =>
    simp only [step, work] at hs
    split at hs
    · split at hs
      · cases hs
      injection hs with hs
      subst hs
      constructor <;> simp_all [tok] <;> omega
    · split at hs
      · cases hs
      split at hs
      · split at hs <;> (injection hs with hs; subst hs; constructor <;> simp_all [tok] <;> omega)
      · split at hs <;> (injection hs with hs; subst hs; constructor <;> simp_all [tok] <;> omega)
    · injection hs with hs; subst hs; constructor <;> simp_all [tok] <;> omega
    · injection hs with hs; subst hs; constructor <;> simp_all [tok]
    · injection hs with hs; subst hs
      cases hts : s.ts <;> constructor <;> simp_all [tok]
    · split at hs
      · cases hs
      injection hs with hs; subst hs
      rename_i hw h0
      obtain ⟨m, hm⟩ : ∃ m, s.sem = m + 1 := ⟨s.sem - 1, by omega⟩
      have b1 := Nat.le_of_eq bal
      have b2 := Nat.le_of_eq bal.symm
      clear bal
      cases m with
      | zero => cases hp : s.spc <;> constructor <;> simp_all [tok, stp] <;> omega
      | succ m => cases hp : s.spc <;> constructor <;> simp_all [tok, stp] <;> omega
    · injection hs with hs; subst hs
      cases hp : s.spc <;> constructor <;> simp_all [tok] <;> omega
    · injection hs with hs; subst hs
      cases hp : s.spc <;> constructor <;> simp_all [tok] <;> omega
    · cases hs
  | stopSet =>
    simp only [step] at hs
    simp only [Legal] at hl
    split at hs
    · split at hs
      · injection hs with hs; subst hs
        constructor <;> simp_all [stp]
      · cases hs
    · cases hs
  | stopSignal =>
    simp only [step] at hs
    split at hs
    · injection hs with hs; subst hs
      constructor <;> simp_all [stp] <;> omega
    · cases hs
  | join =>
    simp only [step] at hs
    split at hs
    · split at hs
      · injection hs with hs; subst hs
        constructor <;> simp_all [stp]
      · cases hs
    · cases hs

theorem reach_bal {k : Kind} {P : St → Op → Prop} {s : St} (h : Reach k P s) : Bal k s := by
  induction h with
  | start => exact bal_init k
  | next op _ hl _ hs ih => exact bal_step ih hl hs

/-- Without the shutdown race. -/
structure NoRace (s : St) : Prop where
  pc : s.wpc = .termWait ∨ s.wpc = .termSignal ∨ s.wpc = .exit ∨ s.wpc = .dead → s.spc = .signalled ∨ s.spc = .joined
  empty : s.wpc = .exit ∨ s.wpc = .dead → s.wq = [] ∧ s.rq = []

theorem noRace_step {k : Kind} {s s' : St} {op : Op} (hb : Bal k s) (h : NoRace s) (hl : Legal s op)
    (hp : op = .work → s.spc ≠ .set) (hs : step k s op = .ok s') : NoRace s' := by
  obtain ⟨bal, run, stop, term, joined, lost, ts1, one, nsig1⟩ := hb
  obtain ⟨pc, empty⟩ := h
  cases op with
  | push r w =>
    simp only [Legal] at hl
    simp only [step, push] at hs
    split at hs
    · cases hs
    split at hs
    · cases hs
    obtain ⟨hr, hn⟩ := hl
    obtain ⟨e1, e2, e3, e4, e5⟩ := run hn
    injection hs with hs
    subst hs
    split <;> constructor <;> simp_all
  | signal =>
    simp only [step] at hs
    split at hs
    · cases hs
    injection hs with hs
    subst hs
    constructor <;> simp_all
  | cancel r w =>
    simp only [Legal] at hl
    simp only [step, cancel] at hs
    split at hs
    · cases hs
    split at hs
    · cases hs
    obtain ⟨hr, hn⟩ := hl
    obtain ⟨e1, e2, e3, e4, e5⟩ := run hn
    split at hs
    · injection hs with hs
      subst hs
      split <;> constructor <;> simp_all
    · injection hs with hs
      subst hs
      constructor <;> simp_all
  | cancelTake =>
    simp only [step] at hs
    split at hs
    · cases hs
    injection hs with hs
    subst hs
    constructor <;> simp_all
  | work =>
    simp only [forall_const] at hp
    simp only [step, work] at hs
    split at hs
    · split at hs
      · cases hs
      injection hs with hs
      subst hs
      constructor <;> simp_all
    · split at hs
      · cases hs
      split at hs
      · split at hs <;> (injection hs with hs; subst hs; constructor <;> simp_all)
      · split at hs <;> (injection hs with hs; subst hs; constructor <;> simp_all)
    · injection hs with hs; subst hs; constructor <;> simp_all
    · injection hs with hs; subst hs; constructor <;> simp_all
    · injection hs with hs; subst hs
      rename_i hw
      cases hq : s.spc <;> cases hts : s.ts <;> constructor <;> simp_all
    · split at hs
      · cases hs
      injection hs with hs; subst hs
      rename_i hw h0
      have hpc := pc (.inl hw)
      have hst := stop (by rcases hpc with h | h <;> simp [h])
      have hstp : stp s.spc = 1 := by rcases hpc with h | h <;> simp [h, stp]
      constructor
      · intro _; exact hpc
      · intro h
        by_cases h1 : s.sem - 1 = 0
        · have : s.wq.length + s.rq.length = 0 := by simp [hw, tok] at bal; omega
          exact ⟨List.eq_nil_of_length_eq_zero (by simp only; omega), List.eq_nil_of_length_eq_zero (by simp only; omega)⟩
        · simp [h1] at h
    · injection hs with hs; subst hs; constructor <;> simp_all
    · injection hs with hs; subst hs; constructor <;> simp_all
    · cases hs
  | stopSet =>
    simp only [step] at hs
    split at hs
    · split at hs
      · injection hs with hs; subst hs
        constructor <;> simp_all
      · cases hs
    · cases hs
  | stopSignal =>
    simp only [step] at hs
    split at hs
    · injection hs with hs; subst hs
      constructor <;> simp_all
    · cases hs
  | join =>
    simp only [step] at hs
    split at hs
    · split at hs
      · injection hs with hs; subst hs
        constructor <;> simp_all
      · cases hs
    · cases hs

theorem reach_noRace {k : Kind} {P : St → Op → Prop} (hP : ∀ s op, P s op → op = .work → s.spc ≠ .set)
    {s : St} (h : Reach k P s) : NoRace s := by
  induction h with
  | start => constructor <;> simp [init]
  | next op h hl hp hs ih => exact noRace_step (reach_bal h) ih hl (hP _ _ hp) hs

/-! ### Order and exactly-once -/

/-- The requests of one class in the order of their submission. -/
def subs (f : Bool → Bool) (s : St) : List Nat := (s.sub.filter (fun p => f p.2)).map (·.1)

/-- The request currently being served. -/
def cur : WPc → List Nat
  | .serving r => [r]
  | _ => []

def Fifo (f : Bool → Bool) (s : St) (q : List Nat) : Prop :=
  (subs f s).filter (fun r => !s.cancelled.contains r) = s.started.filter (fun r => (subs f s).contains r) ++ q

structure Ord (k : Kind) (s : St) : Prop where
  nodup : (s.sub.map (·.1)).Nodup
  fw : Fifo (toW k) s s.wq
  fr : Fifo (fun w => !toW k w) s s.rq
  st : ∀ r ∈ s.started, r ∈ s.sub.map (·.1)
  ca : ∀ r ∈ s.cancelled, r ∈ s.sub.map (·.1)
  sd : s.started.Nodup
  cd : s.cancelled.Nodup
  srv : s.started = s.served ++ cur s.wpc

theorem mem_subs {f : Bool → Bool} {s : St} {r : Nat} : r ∈ subs f s ↔ ∃ w, (r, w) ∈ s.sub ∧ f w = true := by
  simp [subs]

theorem subs_nodup {f : Bool → Bool} {s : St} (h : (s.sub.map (·.1)).Nodup) : (subs f s).Nodup := by
  exact h.sublist (List.filter_sublist.map _)

/-- Elements of a queue were submitted to it and are neither started nor cancelled. -/
theorem Fifo.mem {f : Bool → Bool} {s : St} {q : List Nat} (h : Fifo f s q) (hn : (s.sub.map (·.1)).Nodup)
    {r : Nat} (hr : r ∈ q) : r ∈ subs f s ∧ r ∉ s.cancelled ∧ r ∉ s.started ∧ q.Nodup := by
  have hm : r ∈ (subs f s).filter (fun r => !s.cancelled.contains r) := by rw [h]; simp [hr]
  have hd : ((subs f s).filter (fun r => !s.cancelled.contains r)).Nodup := (subs_nodup hn).filter _
  rw [h, List.nodup_append] at hd
  simp at hm
  refine ⟨hm.1, hm.2, ?_, hd.2.1⟩
  intro hs
  exact hd.2.2 r (by simp [hs, hm.1]) r hr rfl

theorem Fifo.push_same {f : Bool → Bool} {s s' : St} {q : List Nat} {r : Nat} {w : Bool} (h : Fifo f s q)
    (hf : f w = true) (hr : r ∉ s.sub.map (·.1)) (hc : r ∉ s.cancelled) (hst : r ∉ s.started)
    (e1 : s'.sub = s.sub ++ [(r, w)]) (e2 : s'.cancelled = s.cancelled) (e3 : s'.started = s.started) :
    Fifo f s' (q ++ [r]) := by
  have es : subs f s' = subs f s ++ [r] := by simp [subs, e1, hf]
  unfold Fifo at h ⊢
  rw [es, e2, e3, List.filter_append, h]
  have : s.started.filter (fun x => (subs f s ++ [r]).contains x) = s.started.filter (fun x => (subs f s).contains x) := by
    apply List.filter_congr
    intro x hx
    have : x ≠ r := fun e => hst (e ▸ hx)
    simp [this]
  rw [this]
  simp [hc]

theorem Fifo.push_other {f : Bool → Bool} {s s' : St} {q : List Nat} {r : Nat} {w : Bool} (h : Fifo f s q)
    (hf : f w = false) (e1 : s'.sub = s.sub ++ [(r, w)]) (e2 : s'.cancelled = s.cancelled) (e3 : s'.started = s.started) :
    Fifo f s' q := by
  have es : subs f s' = subs f s := by simp [subs, e1, hf]
  unfold Fifo at h ⊢
  rw [es, e2, e3, h]

theorem Fifo.same {f : Bool → Bool} {s s' : St} {q : List Nat} (h : Fifo f s q)
    (e1 : s'.sub = s.sub) (e2 : s'.cancelled = s.cancelled) (e3 : s'.started = s.started) :
    Fifo f s' q := by
  unfold Fifo subs at *
  rw [e1, e2, e3, h]

theorem Fifo.pop_same {f : Bool → Bool} {s s' : St} {q : List Nat} {r : Nat} (h : Fifo f s (r :: q))
    (hn : (s.sub.map (·.1)).Nodup)
    (e1 : s'.sub = s.sub) (e2 : s'.cancelled = s.cancelled) (e3 : s'.started = s.started ++ [r]) :
    Fifo f s' q := by
  have hm := (h.mem hn (r := r) (by simp)).1
  have es : subs f s' = subs f s := by simp [subs, e1]
  unfold Fifo at h ⊢
  rw [es, e2, e3, h]
  simp [hm]

theorem Fifo.pop_other {f : Bool → Bool} {s s' : St} {q : List Nat} {r : Nat} (h : Fifo f s q) (hr : r ∉ subs f s)
    (e1 : s'.sub = s.sub) (e2 : s'.cancelled = s.cancelled) (e3 : s'.started = s.started ++ [r]) :
    Fifo f s' q := by
  have es : subs f s' = subs f s := by simp [subs, e1]
  unfold Fifo at h ⊢
  rw [es, e2, e3, h]
  simp [hr]

theorem Fifo.cancel_same {f : Bool → Bool} {s s' : St} {q : List Nat} {r : Nat} (h : Fifo f s q)
    (hn : (s.sub.map (·.1)).Nodup) (hr : r ∈ q)
    (e1 : s'.sub = s.sub) (e2 : s'.cancelled = s.cancelled ++ [r]) (e3 : s'.started = s.started) :
    Fifo f s' (q.erase r) := by
  obtain ⟨h1, h2, h3, h4⟩ := h.mem hn hr
  have es : subs f s' = subs f s := by simp [subs, e1]
  unfold Fifo at h ⊢
  rw [es, e2, e3]
  have : (subs f s).filter (fun x => !(s.cancelled ++ [r]).contains x)
      = ((subs f s).filter (fun x => !s.cancelled.contains x)).filter (fun x => x != r) := by
    rw [List.filter_filter]
    apply List.filter_congr
    intro x _
    by_cases hx : x = r <;> simp [hx]
  rw [this, h, List.filter_append, h4.erase_eq_filter]
  congr 1
  rw [List.filter_eq_self]
  intro a ha
  simp at ha ⊢
  rintro rfl
  exact h3 ha.1

theorem Fifo.cancel_other {f : Bool → Bool} {s s' : St} {q : List Nat} {r : Nat} (h : Fifo f s q)
    (hr : r ∉ subs f s)
    (e1 : s'.sub = s.sub) (e2 : s'.cancelled = s.cancelled ++ [r]) (e3 : s'.started = s.started) :
    Fifo f s' q := by
  have es : subs f s' = subs f s := by simp [subs, e1]
  unfold Fifo at h ⊢
  rw [es, e2, e3, ← h]
  apply List.filter_congr
  intro x hx
  have : x ≠ r := fun e => hr (e ▸ hx)
  simp [this]

theorem uniq {s : St} (hn : (s.sub.map (·.1)).Nodup) {r : Nat} {w w' : Bool} (h : (r, w) ∈ s.sub) (h' : (r, w') ∈ s.sub) :
    w = w' := by
  generalize s.sub = l at *
  induction l with
  | nil => simp at h
  | cons a l ih =>
    simp at hn h h'
    rcases h with h | h <;> rcases h' with h' | h'
    · have := h.trans h'.symm; simpa using this
    · exact absurd h' (by have := hn.1; subst h; cases w' <;> simp_all)
    · exact absurd h (by have := hn.1; subst h'; cases w <;> simp_all)
    · exact ih hn.2 h h'

theorem subs_disj {k : Kind} {s : St} (hn : (s.sub.map (·.1)).Nodup) {r : Nat} :
    r ∈ subs (toW k) s → r ∉ subs (fun w => !toW k w) s := by
  rw [mem_subs, mem_subs]
  rintro ⟨w, h, h'⟩ ⟨w', h2, h2'⟩
  have := uniq hn h h2
  subst this
  simp [h'] at h2'

theorem subs_sub {f : Bool → Bool} {s : St} {r : Nat} (h : r ∈ subs f s) : r ∈ s.sub.map (·.1) := by
  rw [mem_subs] at h
  obtain ⟨w, h, _⟩ := h
  exact List.mem_map.2 ⟨_, h, rfl⟩

theorem ord_init (k : Kind) : Ord k init := by
  constructor <;> simp [init, Fifo, subs, cur]

theorem nodup_snoc {l : List Nat} {r : Nat} (h : l.Nodup) (hr : r ∉ l) : (l ++ [r]).Nodup := by
  rw [List.nodup_append]
  refine ⟨h, by simp, ?_⟩
  intro a ha b hb e
  simp at hb
  exact hr (hb ▸ e ▸ ha)

theorem ord_same {k : Kind} {s s' : St} (h : Ord k s) (e1 : s'.sub = s.sub) (e2 : s'.cancelled = s.cancelled)
    (e3 : s'.started = s.started) (e4 : s'.wq = s.wq) (e5 : s'.rq = s.rq)
    (e6 : s'.served ++ cur s'.wpc = s.served ++ cur s.wpc) : Ord k s' := by
  obtain ⟨n, fw, fr, st, ca, sd, cd, srv⟩ := h
  refine ⟨by rw [e1]; exact n, ?_, ?_, by rw [e1, e3]; exact st, by rw [e1, e2]; exact ca, by rw [e3]; exact sd,
    by rw [e2]; exact cd, by rw [e3, e6]; exact srv⟩
  · rw [e4]; exact fw.same e1 e2 e3
  · rw [e5]; exact fr.same e1 e2 e3

theorem ord_step {k : Kind} {s s' : St} {op : Op} (h : Ord k s) (hb : Bal k s) (hl : Legal s op)
    (hs : step k s op = .ok s') : Ord k s' := by
  have h0 := h
  obtain ⟨n, fw, fr, st, ca, sd, cd, srv⟩ := h
  cases op with
  | push r w =>
    simp only [Legal] at hl
    simp only [step, push] at hs
    split at hs
    · cases hs
    split at hs
    · cases hs
    obtain ⟨hr, hn⟩ := hl
    injection hs with hs
    subst hs
    have hc : r ∉ s.cancelled := fun h => hr (ca r h)
    have hst : r ∉ s.started := fun h => hr (st r h)
    have n' : ((s.sub ++ [(r, w)]).map (·.1)).Nodup := by
      rw [List.map_append]
      exact nodup_snoc n hr
    by_cases ht : toW k w
    · simp only [ht, if_true]
      refine ⟨n', fw.push_same ht hr hc hst rfl rfl rfl, fr.push_other (by simp [ht]) rfl rfl rfl, ?_, ?_, sd, cd, srv⟩
      · intro x hx; have := st x hx; simp at this ⊢; exact .inl this
      · intro x hx; have := ca x hx; simp at this ⊢; exact .inl this
    · simp only [ht]
      simp at ht
      refine ⟨n', fw.push_other ht rfl rfl rfl, fr.push_same (w := w) (by simp [ht]) hr hc hst rfl rfl rfl, ?_, ?_, sd, cd, srv⟩
      · intro x hx; have := st x hx; simp at this ⊢; exact .inl this
      · intro x hx; have := ca x hx; simp at this ⊢; exact .inl this
  | signal =>
    simp only [step] at hs
    split at hs
    · cases hs
    injection hs with hs
    subst hs
    exact ord_same h0 rfl rfl rfl rfl rfl rfl
  | cancel r w =>
    simp only [step, cancel] at hs
    split at hs
    · cases hs
    split at hs
    · cases hs
    split at hs
    · rename_i hm
      injection hs with hs
      subst hs
      by_cases ht : toW k w
      · simp only [ht, if_true] at ⊢
        have hm : r ∈ s.wq := by simpa [qOf, ht] using hm
        obtain ⟨h1, h2, h3, h4⟩ := fw.mem n hm
        refine ⟨n, fw.cancel_same n hm rfl rfl rfl, fr.cancel_other (subs_disj n h1) rfl rfl rfl, st, ?_, sd,
          nodup_snoc cd h2, srv⟩
        intro x hx
        simp only [List.mem_append, List.mem_singleton] at hx
        rcases hx with hx | rfl
        · exact ca x hx
        · exact subs_sub (s := s) h1
      · have hm : r ∈ s.rq := by simpa [qOf, ht] using hm
        simp only [ht, if_neg, Bool.false_eq_true, if_false]
        obtain ⟨h1, h2, h3, h4⟩ := fr.mem n hm
        refine ⟨n, fw.cancel_other (fun h => subs_disj n h h1) rfl rfl rfl, fr.cancel_same n hm rfl rfl rfl, st, ?_, sd,
          nodup_snoc cd h2, srv⟩
        intro x hx
        simp only [List.mem_append, List.mem_singleton] at hx
        rcases hx with hx | rfl
        · exact ca x hx
        · exact subs_sub (s := s) h1
    · injection hs with hs
      subst hs
      exact ord_same h0 rfl rfl rfl rfl rfl rfl
  | cancelTake =>
    simp only [step] at hs
    split at hs
    · cases hs
    injection hs with hs
    subst hs
    exact ord_same h0 rfl rfl rfl rfl rfl rfl
  | work =>
    simp only [step, work] at hs
    split at hs
    · rename_i hw
      split at hs
      · cases hs
      injection hs with hs
      subst hs
      exact ord_same h0 rfl rfl rfl rfl rfl (by simp [hw, cur])
    · rename_i hw
      split at hs
      · cases hs
      split at hs
      · split at hs
        · rename_i r q hq
          injection hs with hs; subst hs
          rw [hq] at fw
          obtain ⟨h1, h2, h3, h4⟩ := fw.mem n (r := r) (by simp)
          refine ⟨n, fw.pop_same n rfl rfl rfl, fr.pop_other (subs_disj n h1) rfl rfl rfl, ?_, ca, nodup_snoc sd h3, cd, ?_⟩
          · intro x hx
            simp only [List.mem_append, List.mem_singleton] at hx
            rcases hx with hx | rfl
            · exact st x hx
            · exact subs_sub (s := s) h1
          · simp [srv, cur, hw]
        · injection hs with hs; subst hs
          exact ord_same h0 rfl rfl rfl rfl rfl (by simp [hw, cur])
      · split at hs
        · rename_i r q hq
          injection hs with hs; subst hs
          rw [hq] at fr
          obtain ⟨h1, h2, h3, h4⟩ := fr.mem n (r := r) (by simp)
          refine ⟨n, fw.pop_other (fun h => subs_disj n h h1) rfl rfl rfl, fr.pop_same n rfl rfl rfl, ?_, ca, nodup_snoc sd h3, cd, ?_⟩
          · intro x hx
            simp only [List.mem_append, List.mem_singleton] at hx
            rcases hx with hx | rfl
            · exact st x hx
            · exact subs_sub (s := s) h1
          · simp [srv, cur, hw]
        · injection hs with hs; subst hs
          exact ord_same h0 rfl rfl rfl rfl rfl (by simp [hw, cur])
    · rename_i hw
      injection hs with hs; subst hs
      exact ord_same h0 rfl rfl rfl rfl rfl (by simp [hw, cur])
    · rename_i hw
      injection hs with hs; subst hs
      exact ord_same h0 rfl rfl rfl rfl rfl (by simp [hw, cur])
    · rename_i hw
      injection hs with hs; subst hs
      exact ord_same h0 rfl rfl rfl rfl rfl (by split <;> simp [hw, cur])
    · rename_i hw
      split at hs
      · cases hs
      injection hs with hs; subst hs
      exact ord_same h0 rfl rfl rfl rfl rfl (by simp only; split <;> simp [hw, cur])
    · rename_i hw
      injection hs with hs; subst hs
      exact ord_same h0 rfl rfl rfl rfl rfl (by simp [hw, cur])
    · rename_i hw
      injection hs with hs; subst hs
      exact ord_same h0 rfl rfl rfl rfl rfl (by simp [hw, cur])
    · cases hs
  | stopSet =>
    simp only [step] at hs
    split at hs
    · split at hs
      · injection hs with hs; subst hs
        exact ord_same h0 rfl rfl rfl rfl rfl rfl
      · cases hs
    · cases hs
  | stopSignal =>
    simp only [step] at hs
    split at hs
    · injection hs with hs; subst hs
      exact ord_same h0 rfl rfl rfl rfl rfl rfl
    · cases hs
  | join =>
    simp only [step] at hs
    split at hs
    · split at hs
      · injection hs with hs; subst hs
        exact ord_same h0 rfl rfl rfl rfl rfl rfl
      · cases hs
    · cases hs

theorem reach_ord {k : Kind} {P : St → Op → Prop} {s : St} (h : Reach k P s) : Ord k s := by
  induction h with
  | start => exact ord_init k
  | next op h hl _ hs ih => exact ord_step ih (reach_bal h) hl hs

/-! ### Requests due -/

/-- Submitted requests that were not cancelled, in submission order. -/
def due (s : St) : List Nat := (s.sub.map (·.1)).filter (fun r => !s.cancelled.contains r)

theorem subs_one (s : St) : subs (toW .oneQ) s = s.sub.map (·.1) := by
  simp only [subs, toW, beq_self_eq_true, Bool.true_or]
  rw [List.filter_eq_self.2 (by simp)]

theorem filter_self {l : List Nat} {p : Nat → Bool} (h : ∀ r ∈ l, p r = true) : l.filter p = l := by
  rw [List.filter_eq_self]; exact h

theorem due_one {P : St → Op → Prop} {s : St} (h : Reach .oneQ P s) : due s = s.started ++ s.wq := by
  have ho := reach_ord h
  have := ho.fw
  unfold Fifo at this
  rw [subs_one] at this
  unfold due
  rw [this, filter_self]
  intro r hr
  simpa using ho.st r hr

/-- Every request due is started or in a queue. -/
theorem due_perm {k : Kind} {s : St} (ho : Ord k s) : (due s).Perm (s.started ++ (s.wq ++ s.rq)) := by
  have h1 := ho.fw
  have h2 := ho.fr
  unfold Fifo at h1 h2
  have hd : (due s).Nodup := ho.nodup.filter _
  have e : ∀ r, r ∈ due s ↔ r ∈ s.started ∨ r ∈ s.wq ∨ r ∈ s.rq := by
    intro r
    have hw : r ∈ subs (toW k) s ∧ r ∉ s.cancelled ↔ (r ∈ s.started ∧ r ∈ subs (toW k) s) ∨ r ∈ s.wq := by
      have : r ∈ (subs (toW k) s).filter (fun r => !s.cancelled.contains r) ↔ r ∈ s.started.filter (fun r => (subs (toW k) s).contains r) ++ s.wq := by
        rw [h1]
      simpa using this
    have hr : r ∈ subs (fun w => !toW k w) s ∧ r ∉ s.cancelled ↔ (r ∈ s.started ∧ r ∈ subs (fun w => !toW k w) s) ∨ r ∈ s.rq := by
      have : r ∈ (subs (fun w => !toW k w) s).filter (fun r => !s.cancelled.contains r) ↔ r ∈ s.started.filter (fun r => (subs (fun w => !toW k w) s).contains r) ++ s.rq := by
        rw [h2]
      simpa using this
    have hs : r ∈ s.sub.map (·.1) ↔ r ∈ subs (toW k) s ∨ r ∈ subs (fun w => !toW k w) s := by
      rw [mem_subs, mem_subs]
      constructor
      · intro h
        obtain ⟨⟨x, w⟩, h1, h2⟩ := List.mem_map.1 h
        simp only at h2
        subst h2
        cases ht : toW k w
        · exact .inr ⟨w, h1, by simp [ht]⟩
        · exact .inl ⟨w, h1, ht⟩
      · rintro (⟨w, h, _⟩ | ⟨w, h, _⟩) <;> exact List.mem_map.2 ⟨_, h, rfl⟩
    have hd : r ∈ due s ↔ r ∈ s.sub.map (·.1) ∧ r ∉ s.cancelled := by simp [due]
    rw [hd, hs]
    constructor
    · rintro ⟨h | h, hc⟩
      · rcases hw.1 ⟨h, hc⟩ with h | h
        · exact .inl h.1
        · exact .inr (.inl h)
      · rcases hr.1 ⟨h, hc⟩ with h | h
        · exact .inl h.1
        · exact .inr (.inr h)
    · rintro (h | h | h)
      · rcases hs.1 (ho.st r h) with h3 | h3
        · exact ⟨.inl h3, (hw.2 (.inl ⟨h, h3⟩)).2⟩
        · exact ⟨.inr h3, (hr.2 (.inl ⟨h, h3⟩)).2⟩
      · exact ⟨.inl (hw.2 (.inr h)).1, (hw.2 (.inr h)).2⟩
      · exact ⟨.inr (hr.2 (.inr h)).1, (hr.2 (.inr h)).2⟩
  have hwn : s.wq.Nodup := by
    have : ((subs (toW k) s).filter (fun r => !s.cancelled.contains r)).Nodup := (subs_nodup ho.nodup).filter _
    rw [h1, List.nodup_append] at this
    exact this.2.1
  have hrn : s.rq.Nodup := by
    have : ((subs (fun w => !toW k w) s).filter (fun r => !s.cancelled.contains r)).Nodup := (subs_nodup ho.nodup).filter _
    rw [h2, List.nodup_append] at this
    exact this.2.1
  have hn : (s.started ++ (s.wq ++ s.rq)).Nodup := by
    rw [List.nodup_append]
    refine ⟨ho.sd, ?_, ?_⟩
    · rw [List.nodup_append]
      refine ⟨hwn, hrn, ?_⟩
      intro a ha b hb e
      subst e
      exact subs_disj ho.nodup (ho.fw.mem ho.nodup ha).1 (ho.fr.mem ho.nodup hb).1
    · intro a ha b hb e
      subst e
      simp at hb
      rcases hb with hb | hb
      · exact (ho.fw.mem ho.nodup hb).2.2.1 ha
      · exact (ho.fr.mem ho.nodup hb).2.2.1 ha
  rw [List.perm_ext_iff_of_nodup hd hn]
  intro r
  rw [e]
  simp

/-! ### Reads after writes, without cancellation -/

/-- All writes submitted before the read `r` are in `l`. -/
def Before (s : St) (r : Nat) (l : List Nat) : Prop :=
  ∀ a b, s.sub = a ++ (r, false) :: b → ∀ v, (v, true) ∈ a → v ∈ l

structure Raw (s : St) : Prop where
  nc : s.cancelled = [] ∧ s.ncw = 0
  raw : ∀ p r q, s.started = p ++ r :: q → Before s r p
  ph : s.phase = false ∨ s.wpc = .putBack → (∀ r q, s.rq = r :: q → Before s r s.started) ∧ (s.rq = [] → s.spc ≠ .none)

theorem Before.push {s s' : St} {r x : Nat} {w : Bool} {l : List Nat} (h : Before s r l)
    (hr : r ∈ s.sub.map (·.1)) (hn : ((s.sub ++ [(x, w)]).map (·.1)).Nodup) (e : s'.sub = s.sub ++ [(x, w)]) : Before s' r l := by
  intro a b hab v hv
  rw [e] at hab
  rcases List.eq_nil_or_concat b with rfl | ⟨b', y, rfl⟩
  · exfalso
    have := List.append_inj' hab (by simp)
    simp at this
    obtain ⟨_, rfl, _⟩ := this
    rw [List.map_append, List.nodup_append] at hn
    exact hn.2.2 x hr x (by simp) rfl
  · have hab' : s.sub ++ [(x, w)] = (a ++ (r, false) :: b') ++ [y] := by rw [hab]; simp
    have := List.append_inj' hab' (by simp)
    exact h a b' this.1 v hv

theorem Before.same {s s' : St} {r : Nat} {l : List Nat} (h : Before s r l) (e : s'.sub = s.sub) : Before s' r l := by
  unfold Before at *
  rw [e]; exact h

theorem Before.mono {s : St} {r : Nat} {l l' : List Nat} (h : Before s r l) (hl : ∀ x ∈ l, x ∈ l') : Before s r l' :=
  fun a b hab v hv => hl _ (h a b hab v hv)

theorem raw_same {s s' : St} (h : Raw s) (e1 : s'.sub = s.sub) (e2 : s'.cancelled = s.cancelled) (e3 : s'.ncw = s.ncw)
    (e4 : s'.started = s.started) (e5 : s'.rq = s.rq)
    (e6 : s'.phase = false ∨ s'.wpc = .putBack → s.phase = false ∨ s.wpc = .putBack)
    (e7 : s.spc ≠ .none → s'.spc ≠ .none) : Raw s' := by
  obtain ⟨nc, raw, ph⟩ := h
  refine ⟨by rw [e2, e3]; exact nc, ?_, ?_⟩
  · intro p r q h
    rw [e4] at h
    exact (raw p r q h).same e1
  · intro h
    obtain ⟨h1, h2⟩ := ph (e6 h)
    rw [e4, e5]
    exact ⟨fun r q hq => (h1 r q hq).same e1, fun h => e7 (h2 h)⟩

theorem raw_step {s s' : St} {op : Op} (ho : Ord .twoQ s) (hb : Bal .twoQ s) (h : Raw s) (hl : Legal s op)
    (hnc : ∀ r w, op ≠ .cancel r w) (hs : step .twoQ s op = .ok s') : Raw s' := by
  have h0 := h
  obtain ⟨nc, raw, ph⟩ := h
  have ho' := ord_step ho hb hl hs
  cases op with
  | push r w =>
    simp only [Legal] at hl
    simp only [step, push] at hs
    split at hs
    · cases hs
    split at hs
    · cases hs
    obtain ⟨hr, hn⟩ := hl
    injection hs with hs
    have e1 : s'.sub = s.sub ++ [(r, w)] := by subst hs; split <;> rfl
    have e4 : s'.started = s.started := by subst hs; split <;> rfl
    have hnd := ho'.nodup
    rw [e1] at hnd
    have key : ∀ x l, x ∈ s.sub.map (·.1) → Before s x l → Before s' x l :=
      fun x l hx h => h.push hx hnd e1
    refine ⟨by subst hs; split <;> exact nc, ?_, ?_⟩
    · intro p x q h
      rw [e4] at h
      exact key _ _ (ho.st x (by rw [h]; simp)) (raw p x q h)
    · intro h
      have hpre : s.phase = false ∨ s.wpc = .putBack := by
        subst hs; revert h; split <;> exact id
      obtain ⟨h1, h2⟩ := ph hpre
      cases hq : s.rq with
      | nil => exact absurd hn (h2 hq)
      | cons y q' =>
        have hrq : ∃ q'', s'.rq = y :: q'' := by
          subst hs
          split
          · exact ⟨_, hq⟩
          · exact ⟨q' ++ [r], by simp [hq]⟩
        obtain ⟨q'', hq''⟩ := hrq
        rw [hq'']
        refine ⟨?_, by simp⟩
        intro z q3 e
        cases e
        rw [e4]
        refine key _ _ ?_ (h1 _ _ hq)
        exact subs_sub (ho.fr.mem ho.nodup (r := y) (by simp [hq])).1
  | signal =>
    simp only [step] at hs
    split at hs
    · cases hs
    injection hs with hs
    subst hs
    exact raw_same h0 rfl rfl rfl rfl rfl id id
  | cancel r w => exact absurd rfl (hnc r w)
  | cancelTake =>
    simp only [step, nc.2, true_or, if_true] at hs
    cases hs
  | work =>
    simp only [step, work] at hs
    split at hs
    · rename_i hw
      split at hs
      · cases hs
      injection hs with hs
      subst hs
      exact raw_same h0 rfl rfl rfl rfl rfl (by simp; exact .inl) id
    · rename_i hw
      split at hs
      · cases hs
      split at hs
      · rename_i hph
        simp at hph
        split at hs
        · rename_i r q hq
          injection hs with hs; subst hs
          have hfw := ho.fw
          rw [hq] at hfw
          have hm := hfw.mem ho.nodup (r := r) (by simp)
          refine ⟨nc, ?_, ?_⟩
          · intro p x q' h
            simp only at h
            rcases List.eq_nil_or_concat q' with rfl | ⟨q3, y, rfl⟩
            · have := List.append_inj' h (by simp)
              simp at this
              obtain ⟨_, rfl⟩ := this
              intro a b hab
              exfalso
              obtain ⟨w, h1, h2⟩ := mem_subs.1 hm.1
              have hab' : s.sub = a ++ (r, false) :: b := hab
              have := uniq ho.nodup h1 (w' := false) (by rw [hab']; simp)
              subst this
              simp [toW] at h2
            · have h' : s.started ++ [r] = (p ++ x :: q3) ++ [y] := by rw [h]; simp
              have := List.append_inj' h' (by simp)
              exact (raw p x q3 this.1).same rfl
          · simp [hph]
        · rename_i hq
          injection hs with hs; subst hs
          refine ⟨nc, fun p r q h => (raw p r q h).same rfl, ?_⟩
          intro _
          have hfw := ho.fw
          unfold Fifo at hfw
          rw [hq] at hfw
          constructor
          · intro r q hr a b hab v hv
            have hab' : s.sub = a ++ (r, false) :: b := hab
            have : v ∈ (subs (toW .twoQ) s).filter (fun r => !s.cancelled.contains r) := by
              rw [List.mem_filter]
              refine ⟨mem_subs.2 ⟨true, by rw [hab']; simp [hv], rfl⟩, by simp [nc.1]⟩
            rw [hfw] at this
            simp at this
            exact this.1
          · intro hr hsp
            have := hb.bal
            have hr' : s.rq = [] := hr
            have hsp' : s.spc = .none := hsp
            rw [hw, hq, hr', hsp', nc.2] at this
            simp [tok, stp] at this
      · rename_i hph
        simp at hph
        obtain ⟨p1, p2⟩ := ph (.inl hph)
        split at hs
        · rename_i r q hq
          injection hs with hs; subst hs
          refine ⟨nc, ?_, by simp⟩
          intro p x q' h
          simp only at h
          rcases List.eq_nil_or_concat q' with rfl | ⟨q3, y, rfl⟩
          · have := List.append_inj' h (by simp)
            simp at this
            obtain ⟨h1, rfl⟩ := this
            subst h1
            exact (p1 _ _ hq).same rfl
          · have h' : s.started ++ [r] = (p ++ x :: q3) ++ [y] := by rw [h]; simp
            have := List.append_inj' h' (by simp)
            exact (raw p x q3 this.1).same rfl
        · injection hs with hs; subst hs
          exact raw_same h0 rfl rfl rfl rfl rfl (fun _ => .inl hph) id
    · rename_i hw
      injection hs with hs; subst hs
      exact raw_same h0 rfl rfl rfl rfl rfl (fun _ => .inr hw) id
    · injection hs with hs; subst hs
      exact raw_same h0 rfl rfl rfl rfl rfl (by simp; exact .inl) id
    · injection hs with hs; subst hs
      refine raw_same h0 rfl rfl rfl rfl rfl ?_ id
      simp only
      split <;> (simp; exact .inl)
    · split at hs
      · cases hs
      injection hs with hs; subst hs
      refine raw_same h0 rfl rfl rfl rfl rfl ?_ id
      simp only
      split <;> (simp; exact .inl)
    · injection hs with hs; subst hs
      exact raw_same h0 rfl rfl rfl rfl rfl (by simp; exact .inl) id
    · injection hs with hs; subst hs
      exact raw_same h0 rfl rfl rfl rfl rfl (by simp; exact .inl) id
    · cases hs
  | stopSet =>
    simp only [step] at hs
    split at hs
    · split at hs
      · injection hs with hs; subst hs
        exact raw_same h0 rfl rfl rfl rfl rfl id (by simp)
      · cases hs
    · cases hs
  | stopSignal =>
    simp only [step] at hs
    split at hs
    · injection hs with hs; subst hs
      exact raw_same h0 rfl rfl rfl rfl rfl id (by simp)
    · cases hs
  | join =>
    simp only [step] at hs
    split at hs
    · split at hs
      · injection hs with hs; subst hs
        exact raw_same h0 rfl rfl rfl rfl rfl id (by simp)
      · cases hs
    · cases hs

theorem reach_raw {P : St → Op → Prop} (hP : ∀ s op, P s op → ∀ r w, op ≠ .cancel r w) {s : St}
    (h : Reach .twoQ P s) : Raw s := by
  induction h with
  | start => exact ⟨by simp [init], by simp [init], by simp [init]⟩
  | next op h hl hp hs ih => exact raw_step (reach_ord h) (reach_bal h) ih hl (hP _ _ hp) hs

/-! ### Progress -/

/-- Steps that need no further call of a client. -/
def Internal : Op → Prop
  | .signal | .cancelTake | .work => True
  | _ => False

/-- A run of internal steps. -/
inductive Runs (k : Kind) : St → St → Prop
  | refl (s) : Runs k s s
  | step {s s' t} (op : Op) : Internal op → step k s op = .ok s' → Runs k s' t → Runs k s t

theorem internal_legal {s : St} {op : Op} (h : Internal op) : Legal s op := by
  cases op <;> simp_all [Internal, Legal]

theorem Runs.inv {k : Kind} {s t : St} (h : Runs k s t) (hb : Bal k s) (ho : Ord k s) :
    Bal k t ∧ Ord k t ∧ t.sub = s.sub ∧ t.cancelled = s.cancelled ∧ t.spc = s.spc := by
  induction h with
  | refl s => exact ⟨hb, ho, rfl, rfl, rfl⟩
  | @step s s' t op hi hs hr ih =>
    have hl := internal_legal (s := s) hi
    obtain ⟨b, o, e1, e2, e3⟩ := ih (bal_step hb hl hs) (ord_step ho hb hl hs)
    have : s'.sub = s.sub ∧ s'.cancelled = s.cancelled ∧ s'.spc = s.spc := by
      clear e1 e2 e3 ih hb ho hl b o hr
      cases op with
      | signal => simp only [Queue.step] at hs; split at hs <;> simp at hs; subst hs; simp
      | cancelTake => simp only [Queue.step] at hs; split at hs <;> simp at hs; subst hs; simp
      | work =>
        simp only [Queue.step, work] at hs
        repeat' split at hs
        all_goals first | (injection hs with hs; subst hs; simp) | cases hs
      | _ => simp [Internal] at hi
    obtain ⟨f1, f2, f3⟩ := this
    exact ⟨b, o, e1.trans f1, e2.trans f2, e3.trans f3⟩

def items (s : St) : Nat := s.wq.length + s.rq.length

/-- The queue the worker looks at next. -/
def cq (k : Kind) (s : St) : List Nat :=
  if k = .oneQ ∨ (if s.wpc = .putBack then !s.phase else s.phase) = true then s.wq else s.rq

def bad (k : Kind) (s : St) : Nat :=
  if items s = 0 then
    match s.wpc with
    | .wait => if s.spc = .signalled then 1 else 0
    | .token => 1
    | _ => 0
  else if cq k s = [] then 1 else 0

def rank : WPc → Nat
  | .wait => 3
  | .token => 2
  | .putBack => 9
  | .serving _ => 9
  | .check => 8
  | .termWait => 7
  | .termSignal => 6
  | .exit => 5
  | .dead => 0

def wm (k : Kind) (s : St) : Nat := 20 * items s + 10 * bad k s + rank s.wpc

theorem bad_le (k : Kind) (s : St) : bad k s ≤ 1 := by
  unfold bad
  repeat' split
  all_goals omega

theorem work_dec {k : Kind} {s : St} (hb : Bal k s) (hsp : s.spc = .none ∨ s.spc = .signalled)
    (hn : s.nsig = 0) (hw : s.wpc = .wait → 0 < s.sem ∧ (s.spc = .none → 0 < items s)) (hd : s.wpc ≠ .dead)
    (he : s.wpc = .exit → s.spc = .signalled) :
    ∃ s', work k s = .ok s' ∧ wm k s' < wm k s ∧ s'.nsig = s.nsig ∧ s'.ncw = s.ncw ∧ s'.spc = s.spc := by
  have hlk : locked k s = false := by simp [locked, hn]
  have hbal := hb.bal
  cases hpc : s.wpc with
  | wait =>
    obtain ⟨h1, h2⟩ := hw hpc
    refine ⟨{ s with sem := s.sem - 1, wpc := .token }, by simp only [work, hpc]; rw [if_neg (by omega)], ?_, rfl, rfl, rfl⟩
    have : bad k { s with sem := s.sem - 1, wpc := .token } ≤ bad k s := by
      simp only [bad, items, cq, hpc]
      split
      · rename_i h3
        rcases hsp with h | h
        · have h4 := h2 h; have h3' : s.wq.length + s.rq.length = 0 := h3; simp only [items] at h4; omega
        · simp [h]
      · simp
    simp only [wm, rank, hpc, items] at this ⊢
    omega
  | token =>
    by_cases hph : k = .oneQ ∨ s.phase = true
    · cases hq : s.wq with
      | cons r q =>
        refine ⟨{ s with wq := q, started := s.started ++ [r], wpc := .serving r }, by simp only [work, hpc, hlk, hph, hq]; rfl, ?_, rfl, rfl, rfl⟩
        have := bad_le k { s with wq := q, started := s.started ++ [r], wpc := .serving r }
        simp only [wm, rank, hpc, items, hq, List.length_cons] at this ⊢
        omega
      | nil =>
        refine ⟨{ s with wpc := .putBack }, by simp only [work, hpc, hlk, hph, hq]; rfl, ?_, rfl, rfl, rfl⟩
        have h1 : bad k s = 1 := by
          simp only [bad, items, cq, hpc, hq]
          rcases hph with h | h <;> simp [h]
        have h2 : bad k { s with wpc := .putBack } = 0 := by
          simp only [bad, items, cq, hq]
          split
          · simp
          · rename_i h3
            rcases hph with h | h
            · have := (hb.one h).1
              simp [this] at h3
            · cases k with
              | oneQ => have := (hb.one rfl).1; simp [this] at h3
              | twoQ =>
                simp [h]
                intro h4; simp [h4] at h3
        simp only [wm, h1]
        rw [show bad k { s with wpc := WPc.putBack } = 0 from h2]
        simp [rank, hpc, items]
    · cases hq : s.rq with
      | cons r q =>
        refine ⟨{ s with rq := q, started := s.started ++ [r], wpc := .serving r, phase := true }, by simp only [work, hpc, hlk, hph, hq]; rfl, ?_, rfl, rfl, rfl⟩
        have := bad_le k { s with rq := q, started := s.started ++ [r], wpc := .serving r, phase := true }
        simp only [wm, rank, hpc, items, hq, List.length_cons] at this ⊢
        omega
      | nil =>
        refine ⟨{ s with wpc := .putBack }, by simp only [work, hpc, hlk, hph, hq]; rfl, ?_, rfl, rfl, rfl⟩
        have hph' : k ≠ .oneQ ∧ s.phase = false := by simpa using hph
        have h1 : bad k s = 1 := by
          simp only [bad, items, cq, hpc, hq]
          simp [hph'.1, hph'.2]
        have h2 : bad k { s with wpc := .putBack } = 0 := by
          simp only [bad, items, cq, hq]
          split
          · simp
          · rename_i h3
            simp [hph'.1, hph'.2]
            intro h4; simp [h4] at h3
        simp only [wm, h1]
        rw [show bad k { s with wpc := WPc.putBack } = 0 from h2]
        simp [rank, hpc, items]
  | putBack =>
    refine ⟨{ s with sem := s.sem + 1, wpc := .check, phase := if k = .twoQ then !s.phase else s.phase }, by simp only [work, hpc], ?_, rfl, rfl, rfl⟩
    have : bad k { s with sem := s.sem + 1, wpc := .check, phase := if k = .twoQ then !s.phase else s.phase } = bad k s := by
      cases k <;> simp [bad, items, cq, hpc]
    simp only [wm, rank, hpc, items] at this ⊢
    omega
  | serving r =>
    refine ⟨{ s with served := s.served ++ [r], wpc := .check }, by simp only [work, hpc], ?_, rfl, rfl, rfl⟩
    have : bad k { s with served := s.served ++ [r], wpc := .check } = bad k s := by
      simp [bad, items, cq, hpc]
    simp only [wm, rank, hpc, items] at this ⊢
    omega
  | check =>
    refine ⟨{ s with wpc := if s.ts = .terminating then .termWait else .wait }, by simp only [work, hpc], ?_, rfl, rfl, rfl⟩
    rcases hsp with h | h
    · have hr := (hb.run h).1
      simp only [hr]
      have : bad k { s with ts := .running, wpc := .wait } = bad k s := by
        simp [bad, items, cq, hpc, h]
      simp [wm, rank, hpc, items, bad, cq, h] at this ⊢
    · have hr : s.ts = .terminating := by
        have := hb.term (.inr h)
        simpa [hpc] using this
      simp [wm, rank, hpc, items, bad, cq, h, hr]
  | termWait =>
    have hS : s.spc = .signalled := by
      rcases hsp with h | h
      · exact absurd hpc (hb.run h).2.1
      · exact h
    have hst := hb.stop (by simp [hS])
    rw [hpc, hst.1, hst.2, hS] at hbal
    simp [tok, stp] at hbal
    refine ⟨{ s with sem := s.sem - 1, wpc := if s.sem - 1 = 0 then .exit else .termSignal }, by simp only [work, hpc]; rw [if_neg (by omega)], ?_, rfl, rfl, rfl⟩
    by_cases h1 : s.sem - 1 = 0
    · simp [wm, rank, hpc, items, bad, cq, h1]
    · simp [wm, rank, hpc, items, bad, cq, h1]
  | termSignal =>
    have hS : s.spc = .signalled := by
      rcases hsp with h | h
      · exact absurd hpc (hb.run h).2.2.1
      · exact h
    have hst := hb.stop (by simp [hS])
    have h1 := hb.ts1 hpc
    rw [hpc, hst.1, hst.2, hS] at hbal
    simp [tok, stp] at hbal
    refine ⟨{ s with sem := s.sem + 1, wpc := .wait }, by simp only [work, hpc], ?_, rfl, rfl, rfl⟩
    have hi : items s ≠ 0 := by simp only [items]; omega
    have : bad k { s with sem := s.sem + 1, wpc := .wait } = bad k s := by
      have hi' : ¬ (s.wq.length + s.rq.length = 0) := hi
      simp only [bad, items, cq, hpc]
      rw [if_neg hi', if_neg hi']
      simp
    simp only [wm, rank, hpc, items] at this ⊢
    omega
  | exit =>
    refine ⟨{ s with ts := .terminated, wpc := .dead }, by simp only [work, hpc], ?_, rfl, rfl, rfl⟩
    simp [wm, rank, hpc, items, bad, cq]
  | dead => exact absurd hpc hd

/-- The worker terminates after `stop_thread` has signalled. -/
theorem terminates_aux {k : Kind} : ∀ n (s : St), Bal k s → s.spc = .signalled → wm k s ≤ n →
    ∃ t, Runs k s t ∧ t.wpc = .dead := by
  intro n
  induction n with
  | zero =>
    intro s hb hS hn
    refine ⟨s, .refl s, ?_⟩
    have : rank s.wpc = 0 := by simp only [wm] at hn; omega
    revert this
    cases s.wpc <;> simp [rank]
  | succ n ih =>
    intro s hb hS hn
    by_cases hd : s.wpc = .dead
    · exact ⟨s, .refl s, hd⟩
    · have hst := hb.stop (by simp [hS])
      obtain ⟨s', h1, h2, h3, h4, h5⟩ := work_dec hb (.inr hS) hst.1
        (by
          intro hw
          refine ⟨?_, by simp [hS]⟩
          have := hb.bal
          rw [hw, hst.1, hst.2, hS] at this
          simp [tok, stp] at this
          omega) hd (fun _ => hS)
      have hb' : Bal k s' := bal_step (op := .work) hb trivial h1
      obtain ⟨t, ht, hdt⟩ := ih s' hb' (h5.trans hS) (by omega)
      exact ⟨t, .step .work trivial h1 ht, hdt⟩

/-- A running queue drains. -/
theorem drains_aux {k : Kind} : ∀ n (s : St), Bal k s → s.spc = .none → s.nsig + s.ncw + wm k s ≤ n →
    ∃ t, Runs k s t ∧ t.wq = [] ∧ t.rq = [] ∧ t.wpc = .wait := by
  intro n
  induction n with
  | zero =>
    intro s hb hS hn
    exfalso
    have h1 : rank s.wpc = 0 := by simp only [wm] at hn; omega
    have h2 := (hb.run hS).2.2.2.2
    revert h1 h2
    cases s.wpc <;> simp [rank]
  | succ n ih =>
    intro s hb hS hn
    have hrun := hb.run hS
    by_cases hsig : s.nsig = 0
    case neg =>
      have hs : step k s .signal = .ok { s with nsig := s.nsig - 1, sem := s.sem + 1 } := by simp [step, hsig]
      have hb' : Bal k _ := bal_step (op := .signal) hb trivial hs
      obtain ⟨t, ht, h⟩ := ih _ hb' hS (by
        have : wm k { s with nsig := s.nsig - 1, sem := s.sem + 1 } = wm k s := rfl
        rw [this]
        simp only
        omega)
      exact ⟨t, .step .signal trivial hs ht, h⟩
    by_cases hcw : s.ncw ≠ 0 ∧ s.sem ≠ 0
    case pos =>
      have hs : step k s .cancelTake = .ok { s with ncw := s.ncw - 1, sem := s.sem - 1 } := by simp [step, hcw]
      have hb' : Bal k _ := bal_step (op := .cancelTake) hb trivial hs
      obtain ⟨t, ht, h⟩ := ih _ hb' hS (by
        have : wm k { s with ncw := s.ncw - 1, sem := s.sem - 1 } = wm k s := rfl
        rw [this]
        simp only
        omega)
      exact ⟨t, .step .cancelTake trivial hs ht, h⟩
    have hbal := hb.bal
    rw [hS, hsig] at hbal
    simp only [stp] at hbal
    by_cases hq : s.wpc = .wait ∧ s.sem = 0
    · rw [hq.1, hq.2] at hbal
      simp only [tok] at hbal
      exact ⟨s, .refl s, List.eq_nil_of_length_eq_zero (by omega), List.eq_nil_of_length_eq_zero (by omega), hq.1⟩
    · obtain ⟨s', h1, h2, h3, h4, h5⟩ := work_dec hb (.inl hS) hsig
        (by
          intro hw
          have h6 : s.sem ≠ 0 := fun h => hq ⟨hw, h⟩
          have h7 : s.ncw = 0 := by
            false_or_by_contra
            rename_i h7
            exact hcw ⟨h7, h6⟩
          rw [hw, h7] at hbal
          simp only [tok] at hbal
          refine ⟨by omega, fun _ => ?_⟩
          simp only [items]; omega) hrun.2.2.2.2 (fun h => absurd h hrun.2.2.2.1)
      have hb' : Bal k s' := bal_step (op := .work) hb trivial h1
      obtain ⟨t, ht, hdt⟩ := ih s' hb' (h5.trans hS) (by omega)
      exact ⟨t, .step .work trivial h1 ht, hdt⟩

end Foxxll.Queue
