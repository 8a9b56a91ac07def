import Verif.Spec.ManagerLife
import Verif.Proofs.Alloc64Reach
/-
Lemmas for property C152.
-/
set_option linter.unusedSimpArgs false
set_option linter.unusedVariables false
namespace Foxxll.ManagerLife
open Foxxll.Alloc Foxxll.Alloc64

/-! ### The constructor of an allocator -/

/-- The allocator of a new disk. -/
def fresh (c : Cfg) (f : Nat) : Disk64 :=
  if c.size = 0 then ⟨⟨[], 0, 0, 0, c.autogrow⟩, f⟩ else ⟨⟨[(0, c.size)], c.size, c.size, c.size, c.autogrow⟩, c.size⟩

theorem create_eq {can : Nat → Bool} {f : Nat} {c : Cfg} (hc : c.size < 2 ^ 64) :
    (create can f c.size c.autogrow = (fresh c f, .ok ()) ∧ (c.size = 0 ∨ can c.size = true)) ∨
    ((create can f c.size c.autogrow).2 = .error .io ∧ (create can f c.size c.autogrow).1.file = f ∧ c.size ≠ 0 ∧ can c.size = false) := by
  have hw : w c.size = c.size := Nat.mod_eq_of_lt hc
  unfold create grow fresh
  by_cases h0 : c.size = 0
  · left; simp [h0]
  · cases hcan : can c.size with
    | true => left; simp [h0, hw, hcan, addFree, SpaceMap.put]
    | false => right; simp [h0, hw, hcan]

/-! ### The loop of the constructor -/

/-- The size of a file after its disk has been set up. -/
def after (c : Cfg) (n : Nat) : Nat := if c.size = 0 then n else c.size

theorem fresh_file (c : Cfg) (f : Nat) : (fresh c f).file = after c f := by
  unfold fresh after; split <;> rfl

/-- Sizes after the disks `i`, …, `i + k - 1` have been set up. -/
def sizesUpto (sizes : Nat → Nat) (l : List Cfg) (i k : Nat) : Nat → Nat := fun j =>
  if i ≤ j ∧ j < i + k then (match l[j - i]? with | some c => after c (sizes j) | none => sizes j) else sizes j

theorem sizesUpto_zero (sizes : Nat → Nat) (l : List Cfg) (i : Nat) : sizesUpto sizes l i 0 = sizes := by
  funext j; unfold sizesUpto; rw [if_neg (by omega)]

theorem sizesUpto_cons (sizes : Nat → Nat) (c : Cfg) (l : List Cfg) (i k : Nat) :
    sizesUpto (setSize sizes i (after c (sizes i))) l (i + 1) k = sizesUpto sizes (c :: l) i (k + 1) := by
  funext j
  unfold sizesUpto setSize
  by_cases hj : j = i
  · subst hj
    rw [if_neg (by omega), if_pos (by omega)]; simp
  · by_cases h2 : i + 1 ≤ j ∧ j < i + 1 + k
    · rw [if_pos h2, if_pos (show i ≤ j ∧ j < i + (k + 1) by omega)]
      rw [show j - i = (j - (i + 1)) + 1 by omega]
      simp [hj]
    · rw [if_neg h2, if_neg hj, if_neg (show ¬ (i ≤ j ∧ j < i + (k + 1)) by omega)]

theorem range'_rev_cons (i k : Nat) (a : List Nat) : (List.range' (i + 1) k).reverse ++ i :: a = (List.range' i (k + 1)).reverse ++ a := by
  rw [List.range'_succ]; simp

theorem mem_makeQueue {qs : List Nat} {q x : Nat} : x ∈ makeQueue qs q ↔ x = q ∨ x ∈ qs := by
  unfold makeQueue
  split
  · constructor
    · exact .inr
    · rintro (rfl | h) <;> assumption
  · simp

/-- Disks set up in order, starting with the sizes `sizes`. -/
def freshFrom (sizes : Nat → Nat) (i : Nat) : List Cfg → List Disk64
  | [] => []
  | c :: l => fresh c (sizes i) :: freshFrom sizes (i + 1) l

theorem freshFrom_congr {s s' : Nat → Nat} {i : Nat} {l : List Cfg} (h : ∀ j, i ≤ j → s j = s' j) : freshFrom s i l = freshFrom s' i l := by
  induction l generalizing i with
  | nil => rfl
  | cons c l ih => simp only [freshFrom]; rw [h i (Nat.le_refl _), ih (fun j hj => h j (by omega))]

theorem buildDisk_ok {w w' : World} {i : Nat} {c : Cfg} {e : Ev} {d : Disk64} (hc : c.size < 2 ^ 64) (h : buildDisk w i c e = (w', .ok d)) :
    d = fresh c (w.sizes i) ∧ w' = ⟨setSize w.sizes i (after c (w.sizes i)), i :: w.files, i :: w.allocs, makeQueue w.queues c.queue⟩ := by
  unfold buildDisk at h
  split at h
  · cases h
  simp only at h
  split at h
  · cases h
  split at h
  · cases h
  rcases create_eq (can := e.can) (f := w.sizes i) hc with ⟨h1, _⟩ | ⟨h1, h2, _⟩
  · rw [h1] at h
    simp only [Prod.mk.injEq, Except.ok.injEq] at h
    rw [← h.1, ← h.2, fresh_file]; exact ⟨rfl, rfl⟩
  · rcases hx : create e.can (w.sizes i) c.size c.autogrow with ⟨d', r⟩
    rw [hx] at h h1
    simp only at h1
    subst h1
    simp at h

theorem setSize_self (s : Nat → Nat) (i : Nat) : setSize s i (s i) = s := by
  funext j; unfold setSize; split
  · next h => rw [h]
  · rfl

theorem buildDisk_err {w w' : World} {i : Nat} {c : Cfg} {e : Ev} {x : Exc} (hc : c.size < 2 ^ 64) (h : buildDisk w i c e = (w', .error x)) :
    w'.sizes = w.sizes ∧ w'.allocs = w.allocs ∧ (w'.files = w.files ∨ w'.files = i :: w.files) ∧ (∀ q, q ∈ w.queues → q ∈ w'.queues) ∧
      (∀ q, q ∈ w'.queues → q ∈ w.queues ∨ q = c.queue) ∧ ¬ Fine (c, e) := by
  unfold buildDisk at h
  split at h
  · rename_i h0
    cases h
    exact ⟨rfl, rfl, .inl rfl, fun q => id, fun q => .inl, fun hf => by have := hf.1; simp [h0] at this⟩
  simp only at h
  split at h
  · rename_i h0
    cases h
    exact ⟨rfl, rfl, .inr rfl, fun q => id, fun q => .inl, fun hf => by have := hf.2.1; simp [h0.2] at this⟩
  split at h
  · rename_i h0
    cases h
    refine ⟨rfl, rfl, .inr rfl, fun q hq => mem_makeQueue.2 (.inr hq), fun q hq => ?_, fun hf => by have := hf.2.2.1; simp [h0] at this⟩
    rcases mem_makeQueue.1 hq with h | h
    · exact .inr h
    · exact .inl h
  rcases create_eq (can := e.can) (f := w.sizes i) hc with ⟨h1, _⟩ | ⟨h1, h2, h3, h4⟩
  · rw [h1] at h; simp at h
  · rcases hx : create e.can (w.sizes i) c.size c.autogrow with ⟨d', r⟩
    rw [hx] at h h1 h2
    simp only at h1 h2
    subst h1
    simp only [Prod.mk.injEq] at h
    rw [← h.1]
    refine ⟨?_, rfl, .inr rfl, fun q hq => mem_makeQueue.2 (.inr hq), fun q hq => ?_, fun hf => by have := hf.2.2.2 c.size; simp [h4] at this⟩
    · simp only [h2]; exact setSize_self _ _
    · rcases mem_makeQueue.1 hq with h | h
      · exact .inr h
      · exact .inl h

theorem buildFrom_ok {w w' : World} {i : Nat} {l : List (Cfg × Ev)} {ds : List Disk64} (hc : ∀ x ∈ l, x.1.size < 2 ^ 64) (h : buildFrom w i l = (w', .ok ds)) :
    ds = freshFrom w.sizes i (l.map Prod.fst) ∧ w'.sizes = sizesUpto w.sizes (l.map Prod.fst) i l.length ∧
      w'.files = (List.range' i l.length).reverse ++ w.files ∧ w'.allocs = (List.range' i l.length).reverse ++ w.allocs ∧
      ∀ q, q ∈ w'.queues ↔ q ∈ w.queues ∨ ∃ x ∈ l, x.1.queue = q := by
  induction l generalizing w i ds with
  | nil =>
    cases h
    exact ⟨rfl, (sizesUpto_zero _ _ _).symm, rfl, rfl, fun q => by simp⟩
  | cons a l ih =>
    obtain ⟨c, e⟩ := a
    simp only [buildFrom] at h
    split at h
    · cases h
    · rename_i w1 d h1
      split at h
      · cases h
      · rename_i w2 ds2 h2
        cases h
        have hd := buildDisk_ok (hc (c, e) List.mem_cons_self) h1
        have hi := ih (fun x hx => hc x (List.mem_cons_of_mem _ hx)) h2
        obtain ⟨e1, e2, e3, e4, e5⟩ := hi
        rw [hd.2] at e1 e2 e3 e4 e5
        refine ⟨?_, ?_, ?_, ?_, ?_⟩
        · rw [e1, hd.1]
          simp only [List.map_cons, freshFrom]
          congr 1
          apply freshFrom_congr
          intro j hj
          simp only [setSize]; rw [if_neg (by omega)]
        · rw [e2]; exact sizesUpto_cons _ _ _ _ _
        · rw [e3]; exact range'_rev_cons _ _ _
        · rw [e4]; exact range'_rev_cons _ _ _
        · intro q
          rw [e5 q]
          simp only [mem_makeQueue, List.mem_cons, exists_eq_or_imp]
          constructor
          · rintro ((h | h) | h)
            · exact .inr (.inl h.symm)
            · exact .inl h
            · exact .inr (.inr h)
          · rintro (h | h | h)
            · exact .inl (.inr h)
            · exact .inl (.inl h.symm)
            · exact .inr h

theorem buildFrom_err {w w' : World} {i : Nat} {l : List (Cfg × Ev)} {x : Exc} (hc : ∀ x ∈ l, x.1.size < 2 ^ 64) (h : buildFrom w i l = (w', .error x)) :
    ∃ k y, l[k]? = some y ∧ ¬ Fine y ∧ w'.sizes = sizesUpto w.sizes (l.map Prod.fst) i k ∧ w'.allocs = (List.range' i k).reverse ++ w.allocs ∧
      (∀ q, q ∈ w.queues → q ∈ w'.queues) ∧ (∀ q, q ∈ w'.queues → q ∈ w.queues ∨ ∃ x ∈ l, x.1.queue = q) := by
  induction l generalizing w i with
  | nil => cases h
  | cons a l ih =>
    obtain ⟨c, e⟩ := a
    simp only [buildFrom] at h
    split at h
    · rename_i w1 y h1
      cases h
      obtain ⟨e1, e2, e3, e4, e5, e6⟩ := buildDisk_err (hc (c, e) List.mem_cons_self) h1
      refine ⟨0, (c, e), rfl, e6, ?_, ?_, e4, ?_⟩
      · rw [e1, sizesUpto_zero]
      · rw [e2]; rfl
      · intro q hq
        rcases e5 q hq with h | h
        · exact .inl h
        · exact .inr ⟨_, List.mem_cons_self, h.symm⟩
    · rename_i w1 d h1
      split at h
      · rename_i w2 y h2
        cases h
        have hd := buildDisk_ok (hc (c, e) List.mem_cons_self) h1
        obtain ⟨k, y, e0, e1, e2, e3, e4, e5⟩ := ih (fun x hx => hc x (List.mem_cons_of_mem _ hx)) h2
        rw [hd.2] at e2 e3 e4 e5
        refine ⟨k + 1, y, by simpa using e0, e1, ?_, ?_, ?_, ?_⟩
        · rw [e2]; exact sizesUpto_cons _ _ _ _ _
        · rw [e3]; exact range'_rev_cons _ _ _
        · intro q hq; exact e4 q (mem_makeQueue.2 (.inr hq))
        · intro q hq
          rcases e5 q hq with h | ⟨x, hx, h⟩
          · rcases mem_makeQueue.1 h with h | h
            · exact .inr ⟨_, List.mem_cons_self, h.symm⟩
            · exact .inl h
          · exact .inr ⟨x, List.mem_cons_of_mem _ hx, h⟩
      · cases h

theorem buildFrom_fine {w : World} {i : Nat} {l : List (Cfg × Ev)} (hc : ∀ x ∈ l, x.1.size < 2 ^ 64) (hf : ∀ x ∈ l, Fine x) :
    ∃ w' ds, buildFrom w i l = (w', .ok ds) := by
  rcases h : buildFrom w i l with ⟨w', r⟩
  cases r with
  | ok ds => exact ⟨_, _, rfl⟩
  | error x =>
    obtain ⟨k, y, e0, e1, _⟩ := buildFrom_err hc h
    exact absurd (hf y (List.mem_of_getElem? e0)) e1

theorem construct_ok_iff {w w' : World} {l : List (Cfg × Ev)} {ds : List Disk64} : construct w l = (w', .ok ds) ↔ buildFrom w 0 l = (w', .ok ds) := by
  unfold construct
  rcases h : buildFrom w 0 l with ⟨w1, r⟩
  cases r <;> simp

theorem construct_err {w w' : World} {l : List (Cfg × Ev)} {x : Exc} (h : construct w l = (w', .error x)) :
    ∃ w1, buildFrom w 0 l = (w1, .error x) ∧ w' = { w1 with files := w.files } := by
  unfold construct at h
  rcases h' : buildFrom w 0 l with ⟨w1, r⟩
  rw [h'] at h
  cases r with
  | ok ds => cases h
  | error y => simp only [Prod.mk.injEq, Except.error.injEq] at h; exact ⟨w1, by rw [h.2], h.1.symm⟩

theorem sizesUpto_twice (sizes : Nat → Nat) (l : List Cfg) (k n : Nat) (h : k ≤ n) :
    sizesUpto (sizesUpto sizes l 0 k) l 0 n = sizesUpto sizes l 0 n := by
  funext j
  unfold sizesUpto
  simp only [Nat.zero_le, true_and, Nat.zero_add, Nat.sub_zero]
  by_cases hj : j < n
  · rw [if_pos hj, if_pos hj]
    by_cases hk : j < k
    · rw [if_pos hk]
      cases l[j]? with
      | none => rfl
      | some c => simp only [after]; split <;> rfl
    · rw [if_neg hk]
  · rw [if_neg hj, if_neg hj, if_neg (by omega)]

theorem freshFrom_get {sizes : Nat → Nat} {i : Nat} {l : List Cfg} (j : Nat) : (freshFrom sizes i l)[j]? = l[j]?.map fun c => fresh c (sizes (i + j)) := by
  induction l generalizing i j with
  | nil => simp [freshFrom]
  | cons c l ih =>
    cases j with
    | zero => simp [freshFrom]
    | succ j => simp only [freshFrom, List.getElem?_cons_succ]; rw [ih]; congr 2; funext c; congr 2; omega

theorem freshFrom_length {sizes : Nat → Nat} {i : Nat} {l : List Cfg} : (freshFrom sizes i l).length = l.length := by
  induction l generalizing i with
  | nil => rfl
  | cons c l ih => simp [freshFrom, ih]

theorem fresh_upto (sizes : Nat → Nat) (c : Cfg) (n : Nat) : fresh c (after c n) = fresh c n := by
  unfold fresh after; split <;> rfl

theorem freshFrom_twice (sizes : Nat → Nat) (l : List Cfg) (k : Nat) : freshFrom (sizesUpto sizes l 0 k) 0 l = freshFrom sizes 0 l := by
  apply List.ext_getElem?
  intro j
  rw [freshFrom_get, freshFrom_get]
  cases h : l[j]? with
  | none => rfl
  | some c =>
    simp only [Option.map_some, Nat.zero_add, Option.some.injEq]
    unfold sizesUpto
    simp only [Nat.zero_le, true_and, Nat.zero_add, Nat.sub_zero, h]
    split
    · exact fresh_upto sizes c _
    · rfl

/-! ### Use -/

theorem fresh_create (c : Cfg) (f : Nat) (hc : c.size < 2 ^ 64) : create (fun _ => true) f c.size c.autogrow = (fresh c f, .ok ()) := by
  rcases create_eq (can := fun _ => true) (f := f) hc with ⟨h, _⟩ | ⟨_, _, _, h⟩
  · exact h
  · cases h

/-- Size of the file and size of the disk. -/
def FileOk (f0 : Nat) (d : Disk64) : Prop := d.file = d.disk.diskBytes ∨ (d.disk.diskBytes = 0 ∧ d.file = f0)

theorem addFree_disk {d d' : Disk} {p z : Nat} (h : addFree d p z = .ok d') : d'.diskBytes = d.diskBytes := by
  unfold addFree at h
  simp only at h
  repeat' split at h
  all_goals first | (cases h; done) | (injection h with h; subst h; rfl)

theorem grow_file {f0 : Nat} {can : Nat → Bool} {s s' : Disk64} {n : Nat} {r : Except Err64 Unit} (hs : FileOk f0 s) (h : grow can s n = (s', r))
    (hr : ∀ e, r ≠ .error (.alloc e)) : FileOk f0 s' := by
  unfold grow at h
  split at h
  · cases h; exact hs
  · simp only at h
    split at h
    · split at h
      · cases h; exact absurd rfl (hr _)
      · cases h; exact .inl rfl
    · cases h; exact hs

theorem newBlocks_file (f0 : Nat) (can : Nat → Bool) (n : Nat) : ∀ (s s' : Disk64) (zs : List Nat) (r : Except Err64 (List Nat)), zs.length < n → FileOk f0 s →
    newBlocks64 can s zs = (s', r) → (∀ e, r ≠ .error (.alloc e)) → FileOk f0 s' := by
  induction n with
  | zero => intro s s' zs r hn; omega
  | succ n ih =>
    intro s s' zs r hn hs h hr
    rw [newBlocks64] at h
    simp only at h
    split at h
    · rename_i s1 e h1
      cases h
      split at h1
      · split at h1
        · exact grow_file hs h1 (fun e he => by injection he with he; exact hr e (by rw [he]))
        · cases h1; exact absurd rfl (hr _)
      · cases h1
    · rename_i s1 h1
      have hs1 : FileOk f0 s1 := by
        split at h1
        · split at h1
          · exact grow_file hs h1 (fun e he => by cases he)
          · cases h1
        · cases h1; exact hs
      split at h
      · rename_i s2 e h2
        cases h
        split at h2
        · cases h2
        · split at h2
          · split at h2
            · rename_i h3
              cases h2
              exact grow_file hs1 h3 (fun e he => by injection he with he; exact hr e (by rw [he]))
            · cases h2
          · cases h2
      · rename_i s2 rg h2
        have hs2 : FileOk f0 s2 := by
          split at h2
          · cases h2; exact hs1
          · split at h2
            · split at h2
              · cases h2
              · rename_i h3
                simp only [Prod.mk.injEq] at h2
                rw [← h2.1]
                exact grow_file hs1 h3 (fun e he => by cases he)
            · cases h2
        split at h
        · cases h; exact hs2
        · cases h; exact absurd rfl (hr _)
      · rename_i s2 h2
        have hs2 : FileOk f0 s2 := by
          split at h2
          · cases h2
          · split at h2
            · split at h2
              · cases h2
              · rename_i h3
                simp only [Prod.mk.injEq] at h2
                rw [← h2.1]
                exact grow_file hs1 h3 (fun e he => by cases he)
            · cases h2; exact hs1
        split at h
        · rename_i hlen
          split at h
          · rename_i s3 e h3
            cases h
            exact ih _ _ _ _ (by simp only [List.length_take]; omega) hs2 h3 (fun e' he => by injection he with he; exact hr e' (by rw [he]))
          · rename_i s3 os h3
            have hs3 := ih _ _ _ _ (by simp only [List.length_take]; omega) hs2 h3 (fun e' he => by cases he)
            split at h
            · rename_i s4 e h4
              cases h
              exact ih _ _ _ _ (by simp only [List.length_drop]; omega) hs3 h4 (fun e' he => by injection he with he; exact hr e' (by rw [he]))
            · rename_i s4 os2 h4
              cases h
              exact ih _ _ _ _ (by simp only [List.length_drop]; omega) hs3 h4 (fun e' he => by cases he)
        · cases h; exact absurd rfl (hr _)

/-- Allocation on an empty disk. -/
theorem newBlocks_empty {can : Nat → Bool} {s s' : Disk64} {zs : List Nat} {r : Except Err64 (List Nat)} (h0 : s.disk.diskBytes = 0) (hf : s.disk.free = [])
    (hb : s.disk.freeBytes = 0) (hr : 0 < reqSize zs) (h : newBlocks64 can s zs = (s', r)) : s' = s ∨ 0 < s'.disk.diskBytes := by
  have hlt : reqSize zs < W := by
    unfold reqSize
    have : ∀ (l : List Nat) (a : Nat), a < W → l.foldl (fun a z => w (a + z)) a < W := by
      intro l
      induction l with
      | nil => intro a ha; exact ha
      | cons x l ih => intro a ha; exact ih _ (Nat.mod_lt _ (by decide))
    exact this zs 0 (by decide)
  have hw : w (reqSize zs) = reqSize zs := Nat.mod_eq_of_lt hlt
  rw [newBlocks64] at h
  simp only [hb, if_pos hr] at h
  cases ha : s.disk.autogrow with
  | false =>
    rw [ha] at h
    simp only [Bool.false_eq_true, if_false, Prod.mk.injEq] at h
    exact .inl h.1.symm
  | true =>
    rw [ha] at h
    simp only [if_true] at h
    cases hc : can (reqSize zs) with
    | false =>
      have hg : grow can s (reqSize zs) = (s, .error .io) := by
        unfold grow
        rw [if_neg (show ¬ reqSize zs = 0 by omega)]
        simp [h0, hw, hc]
      rw [hg] at h
      simp only [Prod.mk.injEq] at h
      exact .inl h.1.symm
    | true =>
      have hg : grow can s (reqSize zs) = (⟨⟨[(0, reqSize zs)], reqSize zs, reqSize zs, s.disk.cfgBytes, s.disk.autogrow⟩, reqSize zs⟩, .ok ()) := by
        unfold grow
        rw [if_neg (show ¬ reqSize zs = 0 by omega)]
        simp [h0, hw, hc, addFree, hf, hb, SpaceMap.put]
      rw [hg] at h
      simp only [findSpace, List.find?_cons, Nat.le_refl, ge_iff_le, decide_true, if_true, Prod.mk.injEq] at h
      rw [← h.1]
      exact .inr hr

theorem reqSize_pos {zs : List Nat} (h0 : zs ≠ []) (hz : ∀ z ∈ zs, 0 < z) (hs : zs.sum < 2 ^ 64) : 0 < reqSize zs := by
  have : ∀ (l : List Nat) (a : Nat), a + l.sum < W → l.foldl (fun a z => w (a + z)) a = a + l.sum := by
    intro l
    induction l with
    | nil => intro a _; simp
    | cons x l ih =>
      intro a ha
      simp only [List.sum_cons] at ha
      simp only [List.foldl_cons, List.sum_cons]
      rw [show w (a + x) = a + x from Nat.mod_eq_of_lt (by omega), ih _ (by omega)]
      omega
  unfold reqSize
  rw [this zs 0 (by rw [Nat.zero_add]; exact hs)]
  cases zs with
  | nil => exact absurd rfl h0
  | cons z zs => have := hz z List.mem_cons_self; simp only [List.sum_cons]; omega

/-- The file is as large as the disk, or nothing has ever been put on it. -/
def Strong (f0 : Nat) (d : Disk64) : Prop :=
  (0 < d.disk.diskBytes → d.file = d.disk.diskBytes) ∧ (d.disk.diskBytes = 0 → d.file = f0 ∧ d.disk.free = [] ∧ d.disk.freeBytes = 0)

theorem reach_mono {f0 cfg : Nat} {ag : Bool} {s : Sys64} (hc : cfg < 2 ^ 64) (h : ReachFit f0 cfg ag s) :
    cfg ≤ s.d.disk.diskBytes ∧ s.d.disk.cfgBytes = cfg ∧ Strong f0 s.d := by
  have key : cfg ≤ s.d.disk.diskBytes ∧ Strong f0 s.d := by
    induction h with
    | @init can d hcr =>
      refine ⟨by rw [(create_spec hc hcr).2.1]; exact Nat.le_refl _, ?_⟩
      rcases create_eq (can := can) (f := f0) (c := ⟨cfg, ag, 0⟩) hc with ⟨h1, _⟩ | ⟨h1, _⟩
      · simp only at h1
        rw [hcr] at h1
        simp only [Prod.mk.injEq, and_true] at h1
        rw [h1]
        unfold fresh
        split
        · exact ⟨fun h => absurd h (by simp), fun _ => ⟨rfl, rfl, rfl⟩⟩
        · rename_i hz
          exact ⟨fun _ => rfl, fun h => absurd h hz⟩
      · simp only at h1
        rw [hcr] at h1; cases h1
    | @alloc s can sizes hr hv hfit ih =>
      obtain ⟨lost, hi⟩ := reach_finv hc hr
      have hpos : 0 < reqSize sizes := reqSize_pos hv.1 (fun z hz => (hv.2 z hz).1) (by omega)
      have fin : ∀ d r, newBlocks64 can s.d sizes = (d, r) → (∀ e, r ≠ .error (.alloc e)) → s.d.disk.diskBytes ≤ d.disk.diskBytes → Strong f0 d := by
        intro d r he hne hm
        by_cases h0 : s.d.disk.diskBytes = 0
        · obtain ⟨x1, x2, x3⟩ := ih.2.2 h0
          rcases newBlocks_empty h0 x2 x3 hpos he with rfl | hp
          · exact ih.2
          · have := newBlocks_file f0 can _ _ _ _ _ (Nat.lt_succ_self _) (.inr ⟨h0, x1⟩) he hne
            refine ⟨fun _ => ?_, fun h => by omega⟩
            rcases this with h | ⟨h, _⟩
            · exact h
            · omega
        · have := newBlocks_file f0 can _ _ _ _ _ (Nat.lt_succ_self _) (.inl (ih.2.1 (by omega))) he hne
          refine ⟨fun _ => ?_, fun h => by omega⟩
          rcases this with h | ⟨h, _⟩
          · exact h
          · omega
      rcases finv_alloc hi can hv.1 (fun z hz => (hv.2 z hz).1) hfit with
        ⟨d, offs, he, ho, -⟩ | ⟨d, e, he, hf, -⟩
      · rw [step_ok he]
        exact ⟨Nat.le_trans ih.1 ho.spec.mono, fin _ _ he (fun e h => by cases h) ho.spec.mono⟩
      · rw [step_err he]
        refine ⟨Nat.le_trans ih.1 hf.mono, ?_⟩
        rcases hf.err with rfl | ⟨rfl, rfl, _⟩
        · exact fin _ _ he (fun e h => by cases h) hf.mono
        · exact ih.2
    | @free s can b hr hb ih =>
      obtain ⟨lost, hi⟩ := reach_finv hc hr
      obtain ⟨d', he, -, -, h1, -⟩ := delete_spec hi.inv hi.small (b := b) (by simp [hb])
      have hst : s.step can (.free b) = ⟨⟨d', s.d.file⟩, s.live.erase b⟩ := by
        simp [Sys64.step, he]
      rw [hst]
      have hin := hi.inv.inside (b := b) (by simp [hb])
      have hpo := hi.inv.pos (b := b) (by simp [hb])
      simp only at hin
      simp only [Strong, h1]
      exact ⟨ih.1, ih.2.1, fun h => by omega⟩
  obtain ⟨lost, hi⟩ := reach_finv hc h
  exact ⟨key.1, hi.cfgB, key.2⟩

theorem used_reach {sizes : Nat → Nat} {cfgs : List Cfg} {ss : List Sys64} (hc : ∀ c ∈ cfgs, c.size < 2 ^ 64) (h : Used sizes cfgs ss) :
    ss.length = cfgs.length ∧ ∀ (i : Nat) s c, ss[i]? = some s → cfgs[i]? = some c → ReachFit (sizes i) c.size c.autogrow s := by
  induction h with
  | @start w l w' ds hw hl hcon =>
    have hb := construct_ok_iff.1 hcon
    have hcl : ∀ x ∈ l, x.1.size < 2 ^ 64 := fun x hx => hc x.1 (by rw [← hl]; exact List.mem_map_of_mem hx)
    have := (buildFrom_ok hcl hb).1
    rw [hl, hw] at this
    subst this
    refine ⟨by simp [freshFrom_length], ?_⟩
    intro i s c h1 h2
    rw [List.getElem?_map, freshFrom_get, h2] at h1
    simp only [Option.map_some, Option.some.injEq, Nat.zero_add] at h1
    subst h1
    exact .init (fresh_create c (sizes i) (hc c (List.mem_of_getElem? h2)))
  | @alloc ss i s can zs hu hs hv hfit ih =>
    refine ⟨by simpa using ih.1, ?_⟩
    intro j s' c h1 h2
    rw [List.getElem?_set] at h1
    split at h1
    · rename_i hij
      subst hij
      split at h1
      · injection h1 with h1; subst h1
        exact .alloc (ih.2 _ _ _ hs h2) hv hfit
      · cases h1
    · exact ih.2 _ _ _ h1 h2
  | @free ss i s can b hu hs hb ih =>
    refine ⟨by simpa using ih.1, ?_⟩
    intro j s' c h1 h2
    rw [List.getElem?_set] at h1
    split at h1
    · rename_i hij
      subst hij
      split at h1
      · injection h1 with h1; subst h1
        exact .free (ih.2 _ _ _ hs h2) hb
      · cases h1
    · exact ih.2 _ _ _ h1 h2

/-! ### The destructor -/

/-- Size of the file after its allocator has been destroyed. -/
def atEnd (d : Disk64) : Nat := if d.disk.diskBytes > d.disk.cfgBytes then d.disk.cfgBytes else d.file

theorem destroy64_some {can : Nat → Bool} {d : Disk64} {n : Nat} (h : destroy64 can d = some n) : n = atEnd d := by
  unfold destroy64 at h
  unfold atEnd
  split at h
  · rename_i hg
    rw [if_pos hg]
    split at h
    · injection h with h; exact h.symm
    · cases h
  · rename_i hg
    rw [if_neg hg]
    injection h with h; exact h.symm

theorem destroyRev_spec {can : Nat → Nat → Bool} (rd : List Disk64) : ∀ {w : World} {fs as : List Nat},
    w.files = (List.range rd.length).reverse ++ fs → w.allocs = (List.range rd.length).reverse ++ as →
    (∀ w', destroyRev can w rd = some w' → w'.files = fs ∧ w'.allocs = as ∧ w'.queues = w.queues ∧
      (∀ j, rd.length ≤ j → w'.sizes j = w.sizes j) ∧ ∀ (j : Nat) d, rd.reverse[j]? = some d → w'.sizes j = atEnd d) ∧
    (destroyRev can w rd = none ↔ ∃ (j : Nat) (d : Disk64), rd.reverse[j]? = some d ∧ d.disk.diskBytes > d.disk.cfgBytes ∧ can j d.disk.cfgBytes = false) := by
  induction rd with
  | nil =>
    intro w fs as hf ha
    refine ⟨?_, by simp [destroyRev]⟩
    intro w' h
    simp only [destroyRev, Option.some.injEq] at h
    subst h
    exact ⟨by simpa using hf, by simpa using ha, rfl, fun _ _ => rfl, by simp⟩
  | cons d ds ih =>
    intro w fs as hf ha
    have hr : (List.range (ds.length + 1)).reverse = ds.length :: (List.range ds.length).reverse := by
      rw [List.range_succ, List.reverse_append]; rfl
    simp only [List.length_cons] at hf ha
    rw [hr] at hf ha
    have hgl : ∀ (j : Nat) (x : Disk64), (d :: ds).reverse[j]? = some x ↔ ds.reverse[j]? = some x ∨ (j = ds.length ∧ x = d) := by
      intro j x
      rw [List.reverse_cons]
      by_cases hj : j < ds.length
      · rw [List.getElem?_append_left (by simpa using hj)]
        constructor
        · exact .inl
        · rintro (h | ⟨h, _⟩)
          · exact h
          · omega
      · rw [List.getElem?_append_right (by simpa using Nat.le_of_not_lt hj)]
        rw [List.getElem?_eq_none (l := ds.reverse) (by simpa using Nat.le_of_not_lt hj)]
        simp only [List.length_reverse, reduceCtorEq, false_or]
        by_cases hj2 : j = ds.length
        · subst hj2; simp [eq_comm]
        · rw [List.getElem?_eq_none (by simp; omega)]; simp [hj2]
    simp only [destroyRev]
    cases hd : destroy64 (can ds.length) d with
    | none =>
      refine ⟨by simp, ?_⟩
      simp only [true_iff]
      unfold destroy64 at hd
      split at hd
      · rename_i hg
        split at hd
        · cases hd
        · rename_i hcan
          exact ⟨ds.length, d, (hgl _ _).2 (.inr ⟨rfl, rfl⟩), hg, by simpa using hcan⟩
      · cases hd
    | some n =>
      have hn := destroy64_some hd
      simp only
      have hih := @ih { w with sizes := setSize w.sizes ds.length n, allocs := w.allocs.erase ds.length, files := w.files.erase ds.length } fs as
        (by simp only [hf]; simp) (by simp only [ha]; simp)
      refine ⟨?_, ?_⟩
      · intro w' h
        obtain ⟨e1, e2, e3, e4, e5⟩ := hih.1 w' h
        refine ⟨e1, e2, e3, ?_, ?_⟩
        · intro j hj
          simp only [List.length_cons] at hj
          rw [e4 j (by omega)]
          simp only [setSize]; rw [if_neg (by omega)]
        · intro j x hx
          rcases (hgl j x).1 hx with h | ⟨h1, h2⟩
          · exact e5 j x h
          · subst h1; subst h2
            rw [e4 _ (Nat.le_refl _)]
            simp [setSize, hn]
      · rw [hih.2]
        constructor
        · rintro ⟨j, x, h1, h2⟩; exact ⟨j, x, (hgl j x).2 (.inl h1), h2⟩
        · rintro ⟨j, x, h1, h2, h3⟩
          rcases (hgl j x).1 h1 with h | ⟨h4, h5⟩
          · exact ⟨j, x, h, h2, h3⟩
          · subst h4; subst h5
            unfold destroy64 at hd
            rw [if_pos h2, h3] at hd
            cases hd

theorem destroy_spec {can : Nat → Nat → Bool} {ds : List Disk64} {w : World} {fs as : List Nat}
    (hf : w.files = (List.range ds.length).reverse ++ fs) (ha : w.allocs = (List.range ds.length).reverse ++ as) :
    (∀ w', destroy can w ds = some w' → w'.files = fs ∧ w'.allocs = as ∧ w'.queues = w.queues ∧
      (∀ j, ds.length ≤ j → w'.sizes j = w.sizes j) ∧ ∀ (j : Nat) d, ds[j]? = some d → w'.sizes j = atEnd d) ∧
    (destroy can w ds = none ↔ ∃ (j : Nat) (d : Disk64), ds[j]? = some d ∧ d.disk.diskBytes > d.disk.cfgBytes ∧ can j d.disk.cfgBytes = false) := by
  have := @destroyRev_spec can ds.reverse w fs as (by simpa using hf) (by simpa using ha)
  simpa only [destroy, List.length_reverse, List.reverse_reverse] using this

end Foxxll.ManagerLife
