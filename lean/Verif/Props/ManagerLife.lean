import Verif.Proofs.ManagerLife
import Verif.Proofs.Alloc64Aux
/-
Property C152: construction and destruction of the block manager.

Full statement: if the constructor of `block_manager` throws, everything that it made is given back, and a later attempt without failures
gives what a first one would have given; the destructor gives back everything and leaves each file with its configured size.
-/
namespace Foxxll.ManagerLife
open Foxxll.Alloc Foxxll.Alloc64

/-- No disks, files, allocators or queues; all files have `n` bytes. -/
def empty (n : Nat) : World := ⟨fun _ => n, [], [], []⟩

/-- A disk for which all goes well, and one that cannot be opened. -/
def good (n : Nat) (ag : Bool) (q : Nat) : Cfg × Ev := (⟨n, ag, q⟩, ⟨true, true, true, fun _ => true⟩)
def noOpen (n : Nat) (ag : Bool) (q : Nat) : Cfg × Ev := (⟨n, ag, q⟩, ⟨false, true, true, fun _ => true⟩)

/-- **C152, false**: if the second disk cannot be opened, the allocator of the first one is never freed (block_manager.cpp:76, 89-94; `block_allocators_` holds plain pointers). -/
theorem C152_false : ∃ l w x, construct (empty 0) l = (w, .error x) ∧ w.allocs = [0] ∧ w.files = [] :=
  ⟨[good 8 true 0, noOpen 8 true 1], _, _, rfl, rfl, rfl⟩

/-- **C152, false**: a disk of configured size 0 on an existing file: constructor and destructor leave the file as it was (disk_block_allocator.hpp:149-150). -/
theorem C152_size_false : ∃ l w ds w', construct (empty 10) l = (w, .ok ds) ∧ destroy (fun _ _ => true) w ds = some w' ∧ ¬ Restored (l.map Prod.fst) w' := by
  refine ⟨[good 0 true 0], _, _, _, rfl, rfl, ?_⟩
  intro h
  exact absurd (h 0 _ rfl) (by decide)

/-- A disk of 4 bytes on which 8 have been allocated. -/
def grown : Sys64 := ⟨⟨⟨[(8, 4)], 4, 12, 4, true⟩, 12⟩, [⟨0, 8⟩]⟩

theorem used_grown : Used (fun _ => 0) [⟨4, true, 0⟩] [grown] := by
  have h0 : Used (fun _ => 0) [⟨4, true, 0⟩] [⟨⟨⟨[(0, 4)], 4, 4, 4, true⟩, 4⟩, []⟩] :=
    .start (w := empty 0) (l := [good 4 true 0]) rfl rfl rfl
  have h1 := Used.alloc (i := 0) (can := fun _ => true) (zs := [8]) h0 rfl ⟨by simp, by simp⟩ (by decide)
  have hn : newBlocks64 (fun _ => true) ⟨⟨[(0, 4)], 4, 4, 4, true⟩, 4⟩ [8] = (⟨⟨[(8, 4)], 4, 12, 4, true⟩, 12⟩, .ok [0]) := by
    rw [newBlocks64]; decide +kernel
  have he : Sys64.step (fun _ => true) ⟨⟨⟨[(0, 4)], 4, 4, 4, true⟩, 4⟩, []⟩ (.alloc [8]) = grown := by
    simp only [Sys64.step, hn]; rfl
  rw [he] at h1
  exact h1

/-- **C152, false**: an exception of `set_size` in the destructor of an allocator ends the program (disk_block_allocator.hpp:64-69, a destructor). -/
theorem C152_terminate_false : ∃ sizes cfgs ss w can, Used sizes cfgs ss ∧ destroy can w (ss.map (·.d)) = none :=
  ⟨_, _, _, empty 0, fun _ _ => false, used_grown, rfl⟩

/-- **C152, partial**: what a failed constructor leaves behind: no file objects; the allocators of the disks before the one that failed; the files of these disks
have got their sizes; all other files are as before; no queue is lost, new ones are those of the configuration. -/
theorem C152_failed_partial {w w' : World} {l : List (Cfg × Ev)} {x : Exc} (hc : ∀ y ∈ l, y.1.size < 2 ^ 64) (h : construct w l = (w', .error x)) :
    w'.files = w.files ∧ ∃ k y, l[k]? = some y ∧ ¬ Fine y ∧ w'.allocs = (List.range k).reverse ++ w.allocs ∧
      (∀ (i : Nat) c, i < k → (l.map Prod.fst)[i]? = some c → w'.sizes i = if c.size = 0 then w.sizes i else c.size) ∧ (∀ i, k ≤ i → w'.sizes i = w.sizes i) ∧
      (∀ q ∈ w.queues, q ∈ w'.queues) ∧ ∀ q ∈ w'.queues, q ∈ w.queues ∨ ∃ y ∈ l, y.1.queue = q := by
  obtain ⟨w1, h1, rfl⟩ := construct_err h
  obtain ⟨k, y, e0, e1, e2, e3, e4, e5⟩ := buildFrom_err hc h1
  refine ⟨rfl, k, y, e0, e1, by simpa only [List.range_eq_range'] using e3, ?_, ?_, e4, e5⟩
  · intro i c hi hic
    simp only [e2, sizesUpto]
    rw [if_pos (by omega)]
    simp only [Nat.sub_zero, hic, after]
  · intro i hi
    simp only [e2, sizesUpto]
    rw [if_neg (by omega)]

/-- **C152**: if nothing goes wrong, the constructor returns; whenever it returns, each disk has its file, its allocator and its queue, and all of its configured size is free. -/
theorem C152_construct {w : World} {l : List (Cfg × Ev)} (hc : ∀ y ∈ l, y.1.size < 2 ^ 64) :
    ((∀ y ∈ l, Fine y) → ∃ w' ds, construct w l = (w', .ok ds)) ∧
    ∀ w' ds, construct w l = (w', .ok ds) →
      w'.files = (List.range l.length).reverse ++ w.files ∧ w'.allocs = (List.range l.length).reverse ++ w.allocs ∧
      (∀ q, q ∈ w'.queues ↔ q ∈ w.queues ∨ ∃ y ∈ l, y.1.queue = q) ∧ ds.length = l.length ∧
      ∀ (i : Nat) c d, (l.map Prod.fst)[i]? = some c → ds[i]? = some d → d.disk.diskBytes = c.size ∧ d.disk.freeBytes = c.size ∧
        d.disk.free = (if c.size = 0 then [] else [(0, c.size)]) ∧ d.disk.cfgBytes = c.size ∧ d.disk.autogrow = c.autogrow ∧ w'.sizes i = d.file ∧
        (c.size ≠ 0 → w'.sizes i = c.size) ∧ (c.size = 0 → w'.sizes i = w.sizes i) := by
  constructor
  · intro hf
    obtain ⟨w', ds, h⟩ := buildFrom_fine (w := w) (i := 0) hc hf
    exact ⟨w', ds, construct_ok_iff.2 h⟩
  · intro w' ds h
    obtain ⟨e1, e2, e3, e4, e5⟩ := buildFrom_ok hc (construct_ok_iff.1 h)
    refine ⟨by simpa only [List.range_eq_range'] using e3, by simpa only [List.range_eq_range'] using e4, e5, by rw [e1, freshFrom_length]; simp, ?_⟩
    intro i c d h1 h2
    have hi : i < l.length := by
      have := (List.getElem?_eq_some_iff.1 h1).1
      simpa using this
    rw [e1, freshFrom_get, h1] at h2
    simp only [Option.map_some, Option.some.injEq, Nat.zero_add] at h2
    subst h2
    have hs : w'.sizes i = after c (w.sizes i) := by
      simp only [e2, sizesUpto]
      rw [if_pos (by omega)]
      simp only [Nat.sub_zero, h1]
    rw [hs, fresh_file]
    unfold fresh after
    by_cases h0 : c.size = 0 <;> simp [h0]

/-- **C152**: after any number of failed attempts, an attempt without failures gives the same disks, sizes of files, file objects and queues as a first attempt
would have given. -/
theorem C152_retry {cfgs : List Cfg} {w w1 : World} (hc : ∀ c ∈ cfgs, c.size < 2 ^ 64) (ha : Attempts cfgs w w1) {l : List (Cfg × Ev)} (hl : l.map Prod.fst = cfgs)
    (hf : ∀ y ∈ l, Fine y) : ∃ wa wb ds, construct w l = (wa, .ok ds) ∧ construct w1 l = (wb, .ok ds) ∧ wa.sizes = wb.sizes ∧ wa.files = wb.files ∧
      ∀ q, q ∈ wa.queues ↔ q ∈ wb.queues := by
  have hcl : ∀ l : List (Cfg × Ev), l.map Prod.fst = cfgs → ∀ x ∈ l, x.1.size < 2 ^ 64 := fun l hl x hx => hc x.1 (by rw [← hl]; exact List.mem_map_of_mem hx)
  have key : w1.files = w.files ∧ (∃ k, k ≤ cfgs.length ∧ w1.sizes = sizesUpto w.sizes cfgs 0 k) ∧ (∀ q ∈ w.queues, q ∈ w1.queues) ∧
      ∀ q ∈ w1.queues, q ∈ w.queues ∨ ∃ c ∈ cfgs, c.queue = q := by
    induction ha with
    | none => exact ⟨rfl, ⟨0, Nat.zero_le _, (sizesUpto_zero _ _ _).symm⟩, fun _ h => h, fun _ h => .inl h⟩
    | @more w1 w2 l' x _ hl' hx ih =>
      obtain ⟨wm, h1, rfl⟩ := construct_err hx
      obtain ⟨i1, ⟨k, hk, i2⟩, i3, i4⟩ := ih
      obtain ⟨k', y, e0, e1, e2, e3, e4, e5⟩ := buildFrom_err (hcl l' hl') h1
      have hk' : k' < cfgs.length := by
        have := (List.getElem?_eq_some_iff.1 e0).1
        rw [← hl']; simpa using this
      rw [hl', i2] at e2
      refine ⟨i1, ⟨max k k', by omega, ?_⟩, fun q hq => e4 q (i3 q hq), ?_⟩
      · simp only [e2]
        funext j
        simp only [sizesUpto, Nat.zero_le, true_and, Nat.zero_add, Nat.sub_zero]
        by_cases h1 : j < k' <;> by_cases h2 : j < k
        · rw [if_pos h1, if_pos h2, if_pos (by omega)]
          cases cfgs[j]? with
          | none => rfl
          | some c => simp only [after]; split <;> rfl
        · rw [if_pos h1, if_neg h2, if_pos (by omega)]
        · rw [if_neg h1, if_pos h2, if_pos (by omega)]
        · rw [if_neg h1, if_neg h2, if_neg (by omega)]
      · intro q hq
        rcases e5 q hq with h | ⟨x, hx, h⟩
        · exact i4 q h
        · exact .inr ⟨x.1, by rw [← hl']; exact List.mem_map_of_mem hx, h⟩
  obtain ⟨i1, ⟨k, hk, i2⟩, i3, i4⟩ := key
  obtain ⟨wa, da, h1⟩ := buildFrom_fine (w := w) (i := 0) (hcl l hl) hf
  obtain ⟨wb, db, h2⟩ := buildFrom_fine (w := w1) (i := 0) (hcl l hl) hf
  obtain ⟨a1, a2, a3, a4, a5⟩ := buildFrom_ok (hcl l hl) h1
  obtain ⟨b1, b2, b3, b4, b5⟩ := buildFrom_ok (hcl l hl) h2
  have hd : da = db := by rw [a1, b1, hl, i2, freshFrom_twice]
  have hlen : l.length = cfgs.length := by rw [← hl]; simp
  refine ⟨wa, wb, da, construct_ok_iff.2 h1, by rw [hd]; exact construct_ok_iff.2 h2, ?_, by rw [a3, b3, i1], ?_⟩
  · rw [a2, b2, hl, i2, sizesUpto_twice _ _ _ _ (by omega)]
  · intro q
    rw [a5 q, b5 q]
    constructor
    · rintro (h | h)
      · exact .inl (i3 q h)
      · exact .inr h
    · rintro (h | h)
      · rcases i4 q h with h | ⟨c, hcm, h⟩
        · exact .inl h
        · rw [← hl] at hcm
          obtain ⟨y, hy, rfl⟩ := List.mem_map.1 hcm
          exact .inr ⟨y, hy, h⟩
      · exact .inr h

/-- **C152, partial**: the destructor after any use: it gives back all file objects and allocators; each file has its configured size, except files of disks of configured size 0
that were never grown, which are as they were.  It ends the program exactly if a disk has grown and its file cannot be given its configured size. -/
theorem C152_destroy_partial {w0 w : World} {l : List (Cfg × Ev)} {ds : List Disk64} (hc : ∀ y ∈ l, y.1.size < 2 ^ 64) (h : construct w0 l = (w, .ok ds))
    {ss : List Sys64} (hu : Used w0.sizes (l.map Prod.fst) ss) (can : Nat → Nat → Bool) :
    (∀ w', destroy can w (ss.map (·.d)) = some w' → w'.files = w0.files ∧ w'.allocs = w0.allocs ∧ w'.queues = w.queues ∧
      (∀ (i : Nat) c s, (l.map Prod.fst)[i]? = some c → ss[i]? = some s → w'.sizes i = if c.size = 0 ∧ s.d.disk.diskBytes = 0 then w0.sizes i else c.size) ∧
      ((∀ y ∈ l, y.1.size ≠ 0) → Restored (l.map Prod.fst) w')) ∧
    (destroy can w (ss.map (·.d)) = none ↔ ∃ (i : Nat) (c : Cfg) (s : Sys64), (l.map Prod.fst)[i]? = some c ∧ ss[i]? = some s ∧ c.size < s.d.disk.diskBytes ∧ can i c.size = false) := by
  have hcl : ∀ c ∈ l.map Prod.fst, c.size < 2 ^ 64 := by
    intro c hcm
    obtain ⟨y, hy, rfl⟩ := List.mem_map.1 hcm
    exact hc y hy
  obtain ⟨hlen, hre⟩ := used_reach hcl hu
  obtain ⟨e1, e2, -⟩ := (C152_construct hc).2 w ds h
  have hn : (ss.map (·.d)).length = l.length := by rw [List.length_map, hlen, List.length_map]
  obtain ⟨hs, hnone⟩ := @destroy_spec can (ss.map (·.d)) w w0.files w0.allocs (by rw [hn]; exact e1) (by rw [hn]; exact e2)
  have hget : ∀ (i : Nat) s, ss[i]? = some s → ∃ c, (l.map Prod.fst)[i]? = some c := by
    intro i s hsi
    have := (List.getElem?_eq_some_iff.1 hsi).1
    rw [hlen] at this
    exact ⟨_, List.getElem?_eq_getElem this⟩
  constructor
  · intro w' hw
    obtain ⟨a1, a2, a3, a4, a5⟩ := hs w' hw
    have hsz : ∀ (i : Nat) c s, (l.map Prod.fst)[i]? = some c → ss[i]? = some s → w'.sizes i = if c.size = 0 ∧ s.d.disk.diskBytes = 0 then w0.sizes i else c.size := by
      intro i c s h1 h2
      obtain ⟨m1, m2, m3⟩ := reach_mono (hcl c (List.mem_of_getElem? h1)) (hre i s c h2 h1)
      rw [a5 i s.d (by rw [List.getElem?_map, h2]; rfl)]
      unfold atEnd
      rw [m2]
      by_cases hg : s.d.disk.diskBytes > c.size
      · rw [if_pos hg, if_neg (by omega)]
      · rw [if_neg hg]
        have he : s.d.disk.diskBytes = c.size := by omega
        by_cases h0 : c.size = 0
        · rw [if_pos ⟨h0, by omega⟩]
          exact (m3.2 (by omega)).1
        · rw [if_neg (by omega), m3.1 (by omega), he]
    refine ⟨a1, a2, a3, hsz, ?_⟩
    intro hz i c h1
    have hi : i < ss.length := by rw [hlen]; exact (List.getElem?_eq_some_iff.1 h1).1
    rw [hsz i c _ h1 (List.getElem?_eq_getElem hi), if_neg]
    rintro ⟨h0, _⟩
    obtain ⟨y, hy, rfl⟩ := List.mem_map.1 (List.mem_of_getElem? h1)
    exact hz y hy h0
  · rw [hnone]
    constructor
    · rintro ⟨i, d, h1, h2, h3⟩
      rw [List.getElem?_map] at h1
      cases hsi : ss[i]? with
      | none => rw [hsi] at h1; cases h1
      | some s =>
        rw [hsi] at h1
        simp only [Option.map_some, Option.some.injEq] at h1
        subst h1
        obtain ⟨c, hci⟩ := hget i s hsi
        have m := reach_mono (hcl c (List.mem_of_getElem? hci)) (hre i s c hsi hci)
        rw [m.2.1] at h2 h3
        exact ⟨i, c, s, hci, hsi, h2, h3⟩
    · rintro ⟨i, c, s, h1, h2, h3, h4⟩
      have m := reach_mono (hcl c (List.mem_of_getElem? h1)) (hre i s c h2 h1)
      exact ⟨i, s.d, by rw [List.getElem?_map, h2]; rfl, by rw [m.2.1]; exact h3, by rw [m.2.1]; exact h4⟩

/-- The destructor restores the size of the grown disk. -/
example : ∃ w ds w', construct (empty 0) [good 4 true 0] = (w, .ok ds) ∧ Used (fun _ => 0) [⟨4, true, 0⟩] [grown] ∧ grown.d.file = 12 ∧
    destroy (fun _ _ => true) w [grown.d] = some w' ∧ w'.sizes 0 = 4 ∧ w'.files = [] ∧ w'.allocs = [] ∧ w'.queues = [0] :=
  ⟨_, _, _, rfl, used_grown, rfl, rfl, rfl, rfl, rfl, rfl⟩

/-- A failed attempt, and one that succeeds. -/
example : ∃ w x w2 ds, construct (empty 7) [good 8 true 0, noOpen 4 false 0] = (w, .error x) ∧ Attempts [⟨8, true, 0⟩, ⟨4, false, 0⟩] (empty 7) w ∧ w.sizes 0 = 8 ∧ w.sizes 1 = 7 ∧
    construct w [good 8 true 0, good 4 false 0] = (w2, .ok ds) ∧ w2.files = [1, 0] ∧ w2.allocs = [1, 0, 0] ∧ w2.queues = [0] :=
  ⟨_, _, _, _, rfl, .more (l := [good 8 true 0, noOpen 4 false 0]) .none rfl rfl, rfl, rfl, rfl, rfl, rfl, rfl⟩

example : Fine (good 4 true 0) := ⟨rfl, rfl, rfl, fun _ => rfl⟩

end Foxxll.ManagerLife
