import Verif.Proofs.SwapWorld
import Verif.Proofs.SwapStoreRun
/-
A run of two block schedulers over one disk.
-/
namespace Foxxll.SwapStore
open Foxxll

variable {k : Queue.Kind} {qid : Nat → Nat} {cfgs : List (Nat × Bool)} {G : Nat → Nat × Cfg}

def apartB (a b : Nat × Cfg) : Bool := decide (a.2.base + a.2.count a.1 ≤ b.2.base) || decide (b.2.base + b.2.count b.1 ≤ a.2.base)

theorem apartB_of {a b : Nat × Cfg} (h : apartB a b = true) : Apart a b := by
  intro p q hp hq e
  simp [apartB] at h
  omega

/-- The rules, decided, if only schedulers with numbers below `n` exist. -/
def World.fairB (k : Queue.Kind) (qid : Nat → Nat) (G : Nat → Nat × Cfg) (n : Nat) (w : World) (h : Store.Hist) (a : Nat → Swap.Abs Data) (ids : List Nat) : Act → Bool
  | .create i => decide (i < n) && Store.allPending qid w.d ids (fun q => !(decide ((G i).2.base ≤ q.buf) && decide (q.buf < (G i).2.base + (G i).2.count (G i).1))) &&
      (List.range ((G i).2.count (G i).1)).all (fun p => (w.d.mem ((G i).2.base + p)).length == (G i).2.raw) &&
      (List.range n).all (fun j => (w.cl j).isNone || apartB (G i) (G j))
  | .go i ev => (match w.cl i with | some s => SwapStore.fairB k qid (G i).1 (G i).2 { s with d := w.d } h (a i) ids ev | none => true) &&
      match ev with
      | .env _ => false
      | .adopt b _ => (List.range n).all (fun j => match w.cl j with | some s => s.own.all (fun e => s.bid e != b) | none => true)
      | _ => true
  | .env op => Store.allowedB k qid w.d ids op && foreignB [] 0 0 op &&
      (List.range n).all (fun i => match w.cl i with | some s => foreignB (s.own.map s.bid) (G i).2.base ((G i).2.base + (G i).2.count (G i).1) op | none => true)

theorem World.fairB_of {n : Nat} {w : World} {h : Store.Hist} {a : Nat → Swap.Abs Data} {ids : List Nat} {act : Act} (hi : ∀ r, w.d.reqs r ≠ none → r ∈ ids)
    (hn : ∀ j, w.cl j ≠ none → j < n) (hb : w.fairB k qid G n h a ids act = true) : w.Fair k qid G h a act := by
  cases act with
  | create i =>
    simp only [World.fairB, Bool.and_eq_true, List.all_eq_true, List.mem_range, beq_iff_eq] at hb
    obtain ⟨⟨⟨_, h1⟩, h2⟩, h3⟩ := hb
    refine ⟨?_, h2, ?_⟩
    · intro r q hp hq
      have := Store.allPending_of hi h1 hp hq
      simp at this
      omega
    · intro j hj
      have := h3 j (hn j hj)
      rw [Bool.or_eq_true] at this
      rcases this with h | h
      · exact absurd (Option.isNone_iff_eq_none.1 h) hj
      · exact apartB_of h
  | go i ev =>
    simp only [World.fairB, Bool.and_eq_true] at hb
    obtain ⟨h1, h2⟩ := hb
    refine ⟨?_, ?_, ?_⟩
    · intro s hs
      simp only [hs] at h1
      exact SwapStore.fairB_of hi h1
    · intro op e; subst e; cases h2
    · intro b v e j s hj e' he'
      subst e
      simp only [List.all_eq_true, List.mem_range] at h2
      have := h2 j (hn j (by rw [hj]; simp))
      simp only [hj, List.all_eq_true, bne_iff_ne] at this
      exact this e' he'
  | env op =>
    simp only [World.fairB, Bool.and_eq_true, List.all_eq_true, List.mem_range] at hb
    obtain ⟨⟨h1, h2⟩, h3⟩ := hb
    refine ⟨Store.allowedB_of hi h1, (foreignB_of (d := w.d) (k := k) h2).2, ?_⟩
    intro i s hs
    have := h3 i (hn i (by rw [hs]; simp))
    simp only [hs] at this
    exact (foreignB_of (d := w.d) (k := k) this).1

def World.runB (k : Queue.Kind) (qid : Nat → Nat) (G : Nat → Nat × Cfg) (n : Nat) : World → Store.Hist → (Nat → Swap.Abs Data) → List Nat → List Act →
    Option (World × Store.Hist × (Nat → Swap.Abs Data))
  | w, h, a, _, [] => some (w, h, a)
  | w, h, a, ids, act :: acts =>
    if w.fairB k qid G n h a ids act then
      match w.step k qid G act with
      | some w' => World.runB k qid G n w' (E2E.after w.d h (w.store G act)) (w.known G a act) (used (w.store G act) ++ ids) acts
      | none => none
    else none

theorem world_store {w w' : World} {act : Act} (hs : w.step k qid G act = some w') :
    (w.store G act = none ∧ w'.d = w.d) ∨ ∃ op, w.store G act = some op ∧ Store.step k qid w.d op = some w'.d := by
  cases act with
  | create i =>
    simp only [World.step] at hs
    split at hs
    · cases hs
    · injection hs with hs; subst hs; exact .inl ⟨rfl, rfl⟩
  | go i ev =>
    simp only [World.step] at hs
    split at hs
    · cases hs
    rename_i s hi
    split at hs
    case h_2 => cases hs
    rename_i s' hs'
    injection hs with hs; subst hs
    have : w.store G (.go i ev) = Sys.store (G i).2 { s with d := w.d } ev := by simp [World.store, hi]
    rw [this]
    exact step_store hs'
  | env op =>
    simp only [World.step] at hs
    obtain ⟨d', h1, h2⟩ := Option.map_eq_some_iff.1 hs
    subst h2
    exact .inr ⟨op, rfl, h1⟩

theorem world_below {n : Nat} {w w' : World} {h : Store.Hist} {a : Nat → Swap.Abs Data} {ids : List Nat} {act : Act} (hn : ∀ j, w.cl j ≠ none → j < n)
    (hb : w.fairB k qid G n h a ids act = true) (hs : w.step k qid G act = some w') : ∀ j, w'.cl j ≠ none → j < n := by
  intro j hj
  cases act with
  | create i =>
    simp only [World.fairB, Bool.and_eq_true, decide_eq_true_eq] at hb
    simp only [World.step] at hs
    split at hs
    · cases hs
    injection hs with hs; subst hs
    by_cases hji : j = i
    · rw [hji]; exact hb.1.1.1
    · exact hn j (by simpa [Store.upd, hji] using hj)
  | go i ev =>
    simp only [World.step] at hs
    split at hs
    · cases hs
    rename_i s hi
    split at hs
    case h_2 => cases hs
    injection hs with hs; subst hs
    by_cases hji : j = i
    · rw [hji]; exact hn i (by rw [hi]; simp)
    · exact hn j (by simpa [Store.upd, hji] using hj)
  | env op =>
    simp only [World.step] at hs
    obtain ⟨d', h1, h2⟩ := Option.map_eq_some_iff.1 hs
    subst h2
    exact hn j hj

theorem World.runB_run {n : Nat} {w : World} {h : Store.Hist} {a : Nat → Swap.Abs Data} {ids : List Nat} {acts : List Act} {y} (hr : World.Run k qid cfgs G w h a)
    (hi : ∀ r, w.d.reqs r ≠ none → r ∈ ids) (hn : ∀ j, w.cl j ≠ none → j < n) (hb : World.runB k qid G n w h a ids acts = some y) :
    World.Run k qid cfgs G y.1 y.2.1 y.2.2 := by
  induction acts generalizing w h a ids with
  | nil => simp only [World.runB, Option.some.injEq] at hb; rw [← hb]; exact hr
  | cons act acts ih =>
    simp only [World.runB] at hb
    split at hb
    · rename_i hf
      split at hb
      · rename_i w1 hs
        refine ih (.next act hr (World.fairB_of hi hn hf) hs) ?_ (world_below hn hf hs) hb
        rcases world_store hs with ⟨h1, h2⟩ | ⟨op, h1, h2⟩
        · rw [h1, h2]; exact hi
        · rw [h1]; exact Store.step_ids hi h2
      · cases hb
    · cases hb

/-! ### The run -/

/-- Blocks of two bytes; scheduler 0 has buffer 0 and scheduler 1 has buffer 1 as internal block. -/
def G2 : Nat → Nat × Cfg
  | 0 => (2, ⟨2, [9, 9], 0⟩)
  | i => (2, ⟨2, [9, 9], i⟩)

def wsig : Act := .env (.run 0 .signal Store.slow)
def wwk (n : Nat) : List Act := List.replicate n (.env (.run 0 .work Store.slow))
def on (i : Nat) (l : List Ev) : List Act := l.map (.go i)

/-- Both schedulers have two swappable blocks; block 0 of each is changed. -/
def actsA : List Act := [.create 0, .create 1] ++ on 0 (ca .alloc ++ ca .alloc) ++ on 1 (ca .alloc ++ ca .alloc) ++
  on 0 [.call (.acquire 0 true), .ret, .call (.write 0 [1, 2])] ++ on 1 [.call (.acquire 0 true), .ret, .call (.write 0 [5, 6]), cm 80] ++
  on 0 [cm 81, .ret] ++ on 1 [.ret] ++ on 1 (ca (.release 0 true (fun _ => 0))) ++ on 0 (ca (.release 0 true (fun _ => 0)))

/-- Both acquire block 1: each allocates an external block for its block 0, and the writes of both are in the queue. -/
def actsB : List Act := actsA ++ on 0 [.call (.acquire 1 false)] ++ on 1 [.call (.acquire 1 false), cm 82] ++ on 0 [cm 83] ++ on 1 [cm 1] ++ on 0 [cm 2]

/-- The writes are served, both release block 1 unchanged, and acquire block 0 again. -/
def actsC : List Act := actsB ++ [wsig, wsig] ++ wwk 8 ++ on 0 [cm 84, cm 85, .ret] ++ on 1 [cm 86, cm 87, .ret] ++
  on 0 (ca (.release 1 false (fun _ => 0))) ++ on 1 (ca (.release 1 false (fun _ => 0))) ++
  on 1 [.call (.acquire 0 false), cm 3] ++ on 0 [.call (.acquire 0 false), cm 4] ++ [wsig, wsig] ++ wwk 16 ++ on 0 [cm 88] ++ on 1 [cm 89]

def wrun (l : List Act) (p : World → (Nat → Swap.Abs Data) → Bool) : Option Bool :=
  (Store.start [(8, false)] (fun _ => [0, 0])).bind fun d => (World.runB .twoQ id G2 2 (World.init d) ⟨[], fun _ => []⟩ (fun _ => {}) [] l).map fun y => p y.1 y.2.2

theorem wrun_run {l : List Act} {p : World → (Nat → Swap.Abs Data) → Bool} (hp : wrun l p = some true) :
    ∃ w h a, World.Run .twoQ id [(8, false)] G2 w h a ∧ p w a = true := by
  unfold wrun Store.start at hp
  split at hp
  · rename_i m hm
    simp only [Option.bind_some] at hp
    obtain ⟨y, h1, h2⟩ := Option.map_eq_some_iff.1 hp
    refine ⟨y.1, y.2.1, y.2.2, World.runB_run (World.Run.start (Store.Life.start hm (fun _ _ _ => rfl))) ?_ ?_ h1, h2⟩
    · intro r hr; exact absurd rfl hr
    · intro j hj; exact absurd rfl hj
  · cases hp

def wokB (w : World) (_ : Nat → Swap.Abs Data) : Bool :=
  match w.cl 0, w.cl 1 with
  | some s, some t => s.todo == [.wait, .fill 0] && t.todo == [.wait, .fill 0] && s.own == [1] && t.own == [1] && s.bid 1 == Store.blk 0 2 && t.bid 1 == Store.blk 0 0 &&
      !over id w.d 1 && !over id w.d 2
  | _, _ => false

def wokC (w : World) (a : Nat → Swap.Abs Data) : Bool :=
  match w.cl 0, w.cl 1 with
  | some s, some t => s.todo == [] && t.todo == [] && (match s.cur with | some (.acquire 0 false, .int 0) => true | _ => false) &&
      (match t.cur with | some (.acquire 0 false, .int 0) => true | _ => false) && w.d.mem 0 == [1, 2] && w.d.mem 1 == [5, 6] &&
      (a 0).data 0 == some [1, 2] && (a 1).data 0 == some [5, 6] && (a 0).refs 0 == 0 && (a 1).refs 0 == 0
  | _, _ => false

theorem wokB_run : wrun actsB wokB = some true := by decide +kernel
theorem wokC_run : wrun actsC wokC = some true := by decide +kernel

/-! ### No space -/

theorem wrun_of {cfgs : List (Nat × Bool)} {l : List Act} {p : World → (Nat → Swap.Abs Data) → Bool}
    (hp : ((Store.start cfgs (fun _ => [0, 0])).bind fun d =>
      (World.runB .twoQ id G2 2 (World.init d) ⟨[], fun _ => []⟩ (fun _ => {}) [] l).map fun y => p y.1 y.2.2) = some true) :
    ∃ w h a, World.Run .twoQ id cfgs G2 w h a ∧ p w a = true := by
  unfold Store.start at hp
  split at hp
  · rename_i m hm
    simp only [Option.bind_some] at hp
    obtain ⟨y, h1, h2⟩ := Option.map_eq_some_iff.1 hp
    refine ⟨y.1, y.2.1, y.2.2, World.runB_run (World.Run.start (Store.Life.start hm (fun _ _ _ => rfl))) ?_ ?_ h1, h2⟩
    · intro r hr; exact absurd rfl hr
    · intro j hj; exact absurd rfl hj
  · cases hp

/-- Scheduler 1 has changed its block 0 and acquires block 1. -/
def acts1 : List Act := on 1 ([.call (.acquire 0 true), .ret, .call (.write 0 [5, 6]), cm 80, .ret] ++ ca (.release 0 true (fun _ => 0)) ++ [.call (.acquire 1 false)])

/-- Alone, and behind scheduler 0, which takes the last block of the disk for its own block 0. -/
def actsAlone : List Act := [.create 1] ++ on 1 (ca .alloc ++ ca .alloc) ++ acts1
def actsBoth : List Act := [.create 0, .create 1] ++ on 0 (ca .alloc ++ ca .alloc) ++ on 1 (ca .alloc ++ ca .alloc) ++
  on 0 ([.call (.acquire 0 true), .ret, .call (.write 0 [1, 2]), cm 81, .ret] ++ ca (.release 0 true (fun _ => 0)) ++ [.call (.acquire 1 false), cm 83]) ++ acts1

def wokN (thr : Bool) (w : World) (_ : Nat → Swap.Abs Data) : Bool :=
  match w.cl 1 with
  | some s => s.todo == [.new 1, .write 0 1, .wait, .fill 0] && (match s.cur with | some (.acquire 1 false, .int 0) => true | _ => false) && w.d.failed.isEmpty &&
      (match Sys.step .twoQ id (G2 1).2 { s with d := w.d } (cm 82) with | .throws => thr | .ok _ => !thr | _ => false) && (thr || (w.cl 0).isNone)
  | none => false

theorem wokN_alone : ((Store.start [(2, false)] (fun _ => [0, 0])).bind fun d =>
    (World.runB .twoQ id G2 2 (World.init d) ⟨[], fun _ => []⟩ (fun _ => {}) [] actsAlone).map fun y => wokN false y.1 y.2.2) = some true := by decide +kernel
theorem wokN_both : ((Store.start [(2, false)] (fun _ => [0, 0])).bind fun d =>
    (World.runB .twoQ id G2 2 (World.init d) ⟨[], fun _ => []⟩ (fun _ => {}) [] actsBoth).map fun y => wokN true y.1 y.2.2) = some true := by decide +kernel

theorem wokN_of {thr : Bool} {w : World} {a : Nat → Swap.Abs Data} (h : wokN thr w a = true) : ∃ s, w.cl 1 = some s ∧ s.todo = [.new 1, .write 0 1, .wait, .fill 0] ∧
    s.cur = some (.acquire 1 false, .int 0) ∧ w.d.failed = [] ∧
    (match Sys.step .twoQ id (G2 1).2 { s with d := w.d } (cm 82) with | .throws => thr | .ok _ => !thr | _ => false) = true ∧ (thr = false → w.cl 0 = none) := by
  unfold wokN at h
  split at h
  · rename_i s hs
    simp only [Bool.and_eq_true, beq_iff_eq, List.isEmpty_iff] at h
    obtain ⟨⟨⟨⟨h1, h2⟩, h3⟩, h4⟩, h5⟩ := h
    refine ⟨s, hs, h1, ?_, h3, h4, fun e => by subst e; simpa using h5⟩
    split at h2
    · assumption
    · cases h2
  · cases h

end Foxxll.SwapStore
