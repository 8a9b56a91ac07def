import Verif.Spec.AlignedHeap
import Verif.Proofs.Arith
/-
Invariant of the heap of aligned blocks.
-/
namespace Foxxll.AlignedHeap
open Foxxll.Arith (Mem ptrSize storePtr loadPtr loadPtr_storePtr loadPtr_congr)

/-- Buffers do not overlap. -/
def Sep (p q : Nat × Nat) : Prop := p.1 ≠ q.1 ∧ (p.1 + p.2 ≤ q.1 ∨ q.1 + q.2 ≤ p.1)

theorem Sep.symm {p q : Nat × Nat} (h : Sep p q) : Sep q p := ⟨fun e => h.1 e.symm, h.2.symm⟩

/-- A block in its buffer, with the stored pointer. -/
structure Fit (h : Heap) (b : Blk) : Prop where
  aligned : b.align ∣ b.ptr + b.metaSize
  buf : ∃ len, (b.buf, len) ∈ h.live ∧ b.buf + ptrSize ≤ b.ptr ∧ b.ptr + b.metaSize + b.size ≤ b.buf + len
  stored : loadPtr h.mem (b.ptr - ptrSize) = b.buf

structure Inv (s : St) : Prop where
  sep : s.h.live.Pairwise Sep
  low : ∀ p ∈ s.h.live, 0 < p.1 ∧ p.1 < 2 ^ 64
  fit : ∀ b ∈ s.blocks, Fit s.h b
  bufs : (s.blocks.map (·.buf)).Nodup

theorem live_eq {l : List (Nat × Nat)} (h : l.Pairwise Sep) {p q} (hp : p ∈ l) (hq : q ∈ l) (e : p.1 = q.1) : p = q := by
  induction l with
  | nil => cases hp
  | cons x l ih =>
    rw [List.pairwise_cons] at h
    rcases List.mem_cons.1 hp with rfl | hp' <;> rcases List.mem_cons.1 hq with rfl | hq'
    · rfl
    · exact absurd e (h.1 _ hq').1
    · exact absurd e.symm (h.1 _ hp').1
    · exact ih h.2 hp' hq'

theorem live_sep {l : List (Nat × Nat)} (h : l.Pairwise Sep) {p q} (hp : p ∈ l) (hq : q ∈ l) (e : p.1 ≠ q.1) : Sep p q := by
  induction l with
  | nil => cases hp
  | cons x l ih =>
    rw [List.pairwise_cons] at h
    rcases List.mem_cons.1 hp with rfl | hp' <;> rcases List.mem_cons.1 hq with rfl | hq'
    · exact absurd rfl e
    · exact h.1 _ hq'
    · exact (h.1 _ hp').symm
    · exact ih h.2 hp' hq'

theorem inside_of {l : List (Nat × Nat)} {p} (hp : p ∈ l) {a} (h1 : p.1 ≤ a) (h2 : a < p.1 + p.2) : inside l a = true := by
  unfold inside; rw [List.any_eq_true]; exact ⟨p, hp, by simp [h1, h2]⟩

theorem covers_of {l : List (Nat × Nat)} {p} (hp : p ∈ l) {a n} (h1 : p.1 ≤ a) (h2 : a + n ≤ p.1 + p.2) : covers l a n = true := by
  unfold covers; rw [List.any_eq_true]; exact ⟨p, hp, by simp [h1, h2]⟩

theorem clobber_in {l : List (Nat × Nat)} {p} (hp : p ∈ l) {a} (h1 : p.1 ≤ a) (h2 : a < p.1 + p.2) (j m) :
    clobber l j m a = m a := by
  unfold clobber; rw [if_pos (inside_of hp h1 h2)]

theorem storePtr_out (m : Mem) (addr v a : Nat) (h : a < addr ∨ addr + ptrSize ≤ a) : storePtr m addr v a = m a := by
  unfold storePtr; rw [if_neg (by omega)]

/-- A block still fits when its buffer and the memory in it stay. -/
theorem Fit.keep {h h' : Heap} {b : Blk} (hb : Fit h b) (hl : ∀ len, (b.buf, len) ∈ h.live → (b.buf, len) ∈ h'.live)
    (hm : ∀ len, (b.buf, len) ∈ h.live → ∀ a, b.buf ≤ a → a < b.buf + len → a < b.ptr → h'.mem a = h.mem a) : Fit h' b := by
  obtain ⟨len, h1, h2, h3⟩ := hb.buf
  refine ⟨hb.aligned, ⟨len, hl _ h1, h2, h3⟩, ?_⟩
  rw [← hb.stored]
  apply loadPtr_congr
  intro a ha1 ha2
  unfold ptrSize at *
  exact hm len h1 a (by omega) (by omega) (by omega)

theorem place_mod (A metaSize buf : Nat) (hA : 0 < A) :
    A ∣ place A metaSize buf + metaSize ∧ buf + ptrSize < place A metaSize buf + 0 ∧
      place A metaSize buf ≤ buf + ptrSize + A := by
  unfold place
  have h1 := Nat.mod_lt (buf + ptrSize + metaSize) hA
  have h2 := Nat.mod_add_div (buf + ptrSize + metaSize) A
  generalize (buf + ptrSize + metaSize) % A = r at *
  generalize (buf + ptrSize + metaSize) / A = q at *
  refine ⟨⟨q + 1, ?_⟩, ?_, ?_⟩
  · rw [Nat.mul_add, Nat.mul_one]; omega
  · omega
  · omega

/-- What an activation does when the sizes are small: bad_alloc, a retry with (`realloc` failed) or without the buffer left behind, or a
block. -/
theorem attempt_cases {A size metaSize : Nat} {ans : Ans} {h : Heap} (hA : 0 < A) (hw : A + 8 + metaSize + size < 2 ^ 64)
    (hf : ans.buf = 0 ∨ Fresh h.live ans.buf (allocSize A size metaSize)) :
    attempt A size metaSize ans h = (.badAlloc, h) ∨
    (h.may = true ∧ Fresh h.live ans.buf (allocSize A size metaSize) ∧ ans.re = 0 ∧ attempt A size metaSize ans h =
      (.retry, { live := (ans.buf, allocSize A size metaSize) :: h.live, mem := clobber h.live ans.junk h.mem, may := false })) ∨
    (h.may = true ∧ attempt A size metaSize ans h = (.retry, { h with mem := clobber h.live ans.junk h.mem, may := false })) ∨
    ∃ len, len ≤ allocSize A size metaSize ∧ Fresh h.live ans.buf (allocSize A size metaSize) ∧
      place A metaSize ans.buf + metaSize + size ≤ ans.buf + len ∧
      attempt A size metaSize ans h = (.ok (place A metaSize ans.buf) ans.buf,
        { h with live := (ans.buf, len) :: h.live,
                 mem := storePtr (clobber h.live ans.junk h.mem) (place A metaSize ans.buf - ptrSize) ans.buf }) := by
  obtain ⟨p1, p2, p3⟩ := place_mod A metaSize ans.buf hA
  unfold attempt
  simp only
  by_cases h0 : ans.buf = 0
  · left; rw [if_pos h0]
  · right
    have hf := hf.resolve_left h0
    have hn : allocSize A size metaSize = A + ptrSize + metaSize + size := by
      unfold allocSize W ptrSize; exact Nat.mod_eq_of_lt hw
    have hr : reallocSize A size metaSize ans.buf = place A metaSize ans.buf - ans.buf + metaSize + size := by
      unfold reallocSize W; apply Nat.mod_eq_of_lt; unfold ptrSize at *; omega
    rw [if_neg h0, if_neg (by unfold ptrSize at *; omega)]
    split
    · rename_i hc
      split
      · rename_i hne
        split
        · rename_i h0'
          left; exact ⟨hc.2, hf, h0', rfl⟩
        · right; left; exact ⟨hc.2, rfl⟩
      · right; right
        refine ⟨_, Nat.le_of_lt hc.1, hf, by rw [hr]; omega, ?_⟩
        rw [if_neg (by rw [hr]; omega)]
        unfold store
        rw [if_pos]
        apply covers_of (List.mem_cons_self)
        · simp only; omega
        · simp only [hr]; unfold ptrSize at *; omega
    · right; right
      refine ⟨_, Nat.le_refl _, hf, by rw [hn]; omega, ?_⟩
      unfold store
      rw [if_pos]
      apply covers_of (List.mem_cons_self)
      · simp only; omega
      · simp only [hn]; unfold ptrSize at *; omega

structure HInv (h : Heap) : Prop where
  sep : h.live.Pairwise Sep
  low : ∀ p ∈ h.live, 0 < p.1 ∧ p.1 < 2 ^ 64

theorem allocSize_pos {A size metaSize : Nat} (hA : 0 < A) (hw : A + 8 + metaSize + size < 2 ^ 64) :
    0 < allocSize A size metaSize := by
  unfold allocSize W ptrSize; rw [Nat.mod_eq_of_lt hw]; omega

theorem HInv.cons {h : Heap} (hi : HInv h) {a n len : Nat} (hf : Fresh h.live a n) (hl : len ≤ n) (hn : 0 < n) (m : Mem) (b : Bool) :
    HInv { live := (a, len) :: h.live, mem := m, may := b } := by
  refine ⟨?_, ?_⟩
  · simp only; rw [List.pairwise_cons]
    refine ⟨?_, hi.sep⟩
    intro q hq
    obtain ⟨h1, h2⟩ := hf.2.2 q hq
    exact ⟨h1, by simp only; omega⟩
  · intro p hp
    rcases List.mem_cons.1 hp with rfl | hp
    · exact ⟨hf.1, by have := hf.2.1; simp only; omega⟩
    · exact hi.low p hp

/-- The heap after some activations that had to be repeated: `lost` are the buffers left behind. -/
structure Grown (h : Heap) (lost : List (Nat × Nat)) (h1 : Heap) : Prop where
  live : h1.live = lost ++ h.live
  inv : HInv h1
  mem : ∀ a, inside h.live a = true → h1.mem a = h.mem a

theorem Grown.trans {h h1 h2 : Heap} {l1 l2} (g1 : Grown h l1 h1) (g2 : Grown h1 l2 h2) : Grown h (l2 ++ l1) h2 := by
  refine ⟨by rw [g2.live, g1.live, List.append_assoc], g2.inv, ?_⟩
  intro a ha
  rw [g2.mem a, g1.mem a ha]
  rw [g1.live]; unfold inside at *; rw [List.any_append, ha, Bool.or_true]

/-- What `aligned_alloc` does. -/
theorem alloc_spec {A size metaSize : Nat} (hA : 0 < A) (hw : A + 8 + metaSize + size < 2 ^ 64) :
    ∀ (ans : List Ans) (h : Heap), HInv h → Contract A size metaSize ans h →
    ∃ lost h1, Grown h lost h1 ∧ (Shrinks A size metaSize ans h → lost = []) ∧
      (alignedAlloc A size metaSize ans h = some (.badAlloc, h1) ∨
       ∃ buf len, len ≤ allocSize A size metaSize ∧ Fresh h1.live buf (allocSize A size metaSize) ∧
         place A metaSize buf + metaSize + size ≤ buf + len ∧
         alignedAlloc A size metaSize ans h = some (.ok (place A metaSize buf) buf,
           { h1 with live := (buf, len) :: h1.live, mem := storePtr h1.mem (place A metaSize buf - ptrSize) buf })) := by
  have hpos := allocSize_pos (size := size) hA hw
  intro ans
  induction ans with
  | nil => intro h _ hc; exact hc.elim
  | cons a rest ih =>
    intro h hi hc
    obtain ⟨hc1, hc2⟩ := hc
    rcases attempt_cases hA hw hc1 with he | ⟨hm, hf, h0, he⟩ | ⟨hm, he⟩ | ⟨len, hl, hf, hfit, he⟩
    · refine ⟨[], h, ⟨rfl, hi, fun _ _ => rfl⟩, fun _ => rfl, Or.inl ?_⟩
      rw [alignedAlloc, he]
    · have hi1 := hi.cons hf (Nat.le_refl _) hpos (clobber h.live a.junk h.mem) false
      have g : Grown h [(a.buf, allocSize A size metaSize)]
          { live := (a.buf, allocSize A size metaSize) :: h.live, mem := clobber h.live a.junk h.mem, may := false } :=
        ⟨rfl, hi1, fun x hx => by simp only [clobber, hx, if_true]⟩
      obtain ⟨lost, h1, g1, _, h3⟩ := ih _ hi1 (hc2 _ he)
      refine ⟨_, h1, g.trans g1, ?_, ?_⟩
      · intro hs
        exact absurd h0 (hs.1 hm (Nat.pos_iff_ne_zero.1 hf.1))
      · rw [alignedAlloc, he]; exact h3
    · have hi1 : HInv { h with mem := clobber h.live a.junk h.mem, may := false } := ⟨hi.sep, hi.low⟩
      have g : Grown h [] { h with mem := clobber h.live a.junk h.mem, may := false } :=
        ⟨rfl, hi1, fun x hx => by simp only [clobber, hx, if_true]⟩
      obtain ⟨lost, h1, g1, hs1, h3⟩ := ih _ hi1 (hc2 _ he)
      refine ⟨_, h1, g.trans g1, ?_, ?_⟩
      · intro hs; rw [List.append_nil]; exact hs1 (hs.2 _ he)
      · rw [alignedAlloc, he]; exact h3
    · refine ⟨[], { h with mem := clobber h.live a.junk h.mem }, ⟨rfl, ⟨hi.sep, hi.low⟩, fun x hx => by
        simp only [clobber, hx, if_true]⟩, fun _ => rfl, Or.inr ⟨a.buf, len, hl, hf, hfit, ?_⟩⟩
      rw [alignedAlloc, he]

theorem Inv.heap {s : St} (hi : Inv s) : HInv s.h := ⟨hi.sep, hi.low⟩

/-- A byte of a block or of its stored pointer lies in the block's buffer. -/
theorem Fit.byte {h : Heap} {b : Blk} (hb : Fit h b) {a : Nat} (h1 : b.ptr - ptrSize ≤ a) (h2 : a < b.ptr + b.metaSize + b.size) :
    inside h.live a = true := by
  obtain ⟨len, hl, h3, h4⟩ := hb.buf
  exact inside_of hl (by simp only; unfold ptrSize at *; omega) (by simp only; omega)

/-- Blocks with different buffers have no byte in common, and none with each other's stored pointer. -/
theorem Fit.apart {h : Heap} (hs : h.live.Pairwise Sep) {b c : Blk} (hb : Fit h b) (hc : Fit h c) (hne : b.buf ≠ c.buf) {a : Nat}
    (h1 : b.ptr - ptrSize ≤ a) (h2 : a < b.ptr + b.metaSize + b.size) : a < c.ptr - ptrSize ∨ c.ptr + c.metaSize + c.size ≤ a := by
  obtain ⟨l1, hl1, h3, h4⟩ := hb.buf
  obtain ⟨l2, hl2, h5, h6⟩ := hc.buf
  have := (live_sep hs hl1 hl2 hne).2
  simp only at this
  unfold ptrSize at *
  omega

theorem buf_inj {s : St} (hi : Inv s) {b c} (hb : b ∈ s.blocks) (hc : c ∈ s.blocks) (e : b.buf = c.buf) : b = c := by
  have hn := hi.bufs
  clear hi
  generalize s.blocks = l at *
  induction l with
  | nil => cases hb
  | cons x l ih =>
    rw [List.map_cons, List.nodup_cons] at hn
    rcases List.mem_cons.1 hb with rfl | hb' <;> rcases List.mem_cons.1 hc with rfl | hc'
    · rfl
    · exact absurd (List.mem_map.2 ⟨c, hc', e.symm⟩) hn.1
    · exact absurd (List.mem_map.2 ⟨b, hb', e⟩) hn.1
    · exact ih hb' hc' hn.2

theorem ptr_inj {s : St} (hi : Inv s) {b c} (hb : b ∈ s.blocks) (hc : c ∈ s.blocks) (e : b.ptr = c.ptr) : b = c := by
  apply buf_inj hi hb hc
  apply Classical.byContradiction
  intro hne
  obtain ⟨l1, _, h1, h1'⟩ := (hi.fit b hb).buf
  have := Fit.apart hi.sep (hi.fit b hb) (hi.fit c hc) hne (a := b.ptr - 1) (by unfold ptrSize; omega)
    (by unfold ptrSize at *; omega)
  unfold ptrSize at *
  omega

/-- Nothing is allocated besides the buffers of the blocks. -/
def Tight (s : St) : Prop := ∀ p ∈ s.h.live, ∃ b ∈ s.blocks, b.buf = p.1

/-- A step that keeps the rules: it is defined, keeps the invariant, loses nothing unless `realloc` fails, and leaves the bytes of
other blocks alone. -/
structure Good (s : St) (op : Op) (s' : St) : Prop where
  step : step s op = some s'
  inv : Inv s'
  tight : NoFail s op → Tight s → Tight s'
  keep : ∀ b ∈ s.blocks, b ∈ s'.blocks → ∀ a, b.Has a → (∀ v, op ≠ .write a v) → s'.h.mem a = s.h.mem a

theorem good_write {s : St} (hi : Inv s) {a v : Nat} (hal : Allowed s (.write a v)) : ∃ s', Good s (.write a v) s' := by
  obtain ⟨b, hb, hba⟩ := hal
  have hin := (hi.fit b hb).byte (a := a) (by have := hba.1; omega) hba.2
  refine ⟨⟨{ s.h with mem := fun x => if x = a then v else s.h.mem x }, s.blocks⟩, by simp only [step, hin, if_true], ?_,
    fun _ ht => ht, ?_⟩
  · refine ⟨hi.sep, hi.low, ?_, hi.bufs⟩
    intro c hc
    have hfc := hi.fit c hc
    refine ⟨hfc.aligned, hfc.buf, ?_⟩
    rw [← hfc.stored]
    apply loadPtr_congr
    intro x h1 h2
    simp only
    rw [if_neg]
    rintro rfl
    by_cases he : b = c
    · subst he
      obtain ⟨_, _, h3, _⟩ := hfc.buf
      have := hba.1
      unfold ptrSize at *; omega
    · obtain ⟨_, _, h3, h4⟩ := hfc.buf
      have := Fit.apart hi.sep (hi.fit b hb) hfc (fun e => he (buf_inj hi hb hc e)) (a := x) (by have := hba.1; omega) hba.2
      unfold ptrSize at *; omega
  · intro c _ _ x _ hx
    simp only
    rw [if_neg]
    rintro rfl
    exact hx v rfl

theorem good_alloc {s : St} (hi : Inv s) {A size metaSize : Nat} {ans : List Ans} (hal : Allowed s (.alloc A size metaSize ans)) :
    ∃ s', Good s (.alloc A size metaSize ans) s' := by
  obtain ⟨hA, hw, hc⟩ := hal
  have hpos := allocSize_pos (size := size) hA hw
  obtain ⟨lost, h1, g, hsh, hres⟩ := alloc_spec hA hw ans s.h hi.heap hc
  have old : ∀ b ∈ s.blocks, Fit h1 b := by
    intro b hb
    refine (hi.fit b hb).keep (fun len h => by rw [g.live]; exact List.mem_append_right _ h) ?_
    intro len hl a h2 h3 _
    exact g.mem a (inside_of hl h2 h3)
  rcases hres with he | ⟨buf, len, hl, hf, hfit, he⟩
  · refine ⟨⟨h1, s.blocks⟩, by simp only [step, he], ⟨g.inv.sep, g.inv.low, old, hi.bufs⟩, ?_, ?_⟩
    · intro hn ht p hp
      simp only at hp
      rw [g.live, hsh hn] at hp
      exact ht p hp
    · intro b hb _ a ha _
      exact g.mem a ((hi.fit b hb).byte (by have := ha.1; omega) ha.2)
  · obtain ⟨p1, p2, p3⟩ := place_mod A metaSize buf hA
    let h2 : Heap := { h1 with live := (buf, len) :: h1.live, mem := storePtr h1.mem (place A metaSize buf - ptrSize) buf }
    let nb : Blk := ⟨place A metaSize buf, A, size, metaSize, buf⟩
    have hi2 : HInv h2 := g.inv.cons hf hl hpos _ _
    have hout : ∀ a, inside h1.live a = true → h2.mem a = h1.mem a := by
      intro a ha
      apply storePtr_out
      unfold inside at ha
      rw [List.any_eq_true] at ha
      obtain ⟨p, hp, hpa⟩ := ha
      simp only [decide_eq_true_eq] at hpa
      have := (hf.2.2 p hp).2
      unfold ptrSize at *
      omega
    refine ⟨⟨h2, nb :: s.blocks⟩, by simp only [step, he]; rfl, ⟨hi2.sep, hi2.low, ?_, ?_⟩, ?_, ?_⟩
    · intro b hb
      rcases List.mem_cons.1 hb with rfl | hb
      · refine ⟨p1, ⟨len, List.mem_cons_self, by show buf + ptrSize ≤ place A metaSize buf; omega, hfit⟩, ?_⟩
        exact loadPtr_storePtr _ _ _ (hi2.low (buf, len) List.mem_cons_self).2
      · refine (old b hb).keep (fun l h => List.mem_cons_of_mem _ h) ?_
        intro l hl' a h3 h4 _
        exact hout a (inside_of hl' h3 h4)
    · simp only [List.map_cons, List.nodup_cons]
      refine ⟨?_, hi.bufs⟩
      intro hm
      obtain ⟨b, hb, hbe⟩ := List.mem_map.1 hm
      obtain ⟨l, hbl, _⟩ := (old b hb).buf
      exact (hf.2.2 _ hbl).1 hbe.symm
    · intro hn ht p hp
      rcases List.mem_cons.1 hp with rfl | hp
      · exact ⟨nb, List.mem_cons_self, rfl⟩
      · rw [g.live, hsh hn] at hp
        obtain ⟨b, hb, hbe⟩ := ht p hp
        exact ⟨b, List.mem_cons_of_mem _ hb, hbe⟩
    · intro b hb _ a ha _
      have h3 := (hi.fit b hb).byte (a := a) (by have := ha.1; omega) ha.2
      have h4 := (old b hb).byte (a := a) (by have := ha.1; omega) ha.2
      show h2.mem a = _
      rw [hout a h4, g.mem a h3]

theorem good_dealloc {s : St} (hi : Inv s) {ptr : Nat} {junk : Nat → Nat} (hal : Allowed s (.dealloc ptr junk)) :
    ∃ s', Good s (.dealloc ptr junk) s' := by
  have ppos : ∀ b ∈ s.blocks, b.ptr ≠ 0 := by
    intro b hb
    obtain ⟨_, _, h1, _⟩ := (hi.fit b hb).buf
    unfold ptrSize at h1; omega
  by_cases h0 : ptr = 0
  · subst h0
    have hfil : s.blocks.filter (fun b => b.ptr != 0) = s.blocks := by
      rw [List.filter_eq_self]; intro b hb; simp [ppos b hb]
    exact ⟨s, by simp only [step, alignedDealloc, if_true, hfil], hi, fun _ ht => ht, fun _ _ _ _ _ _ => rfl⟩
  · obtain ⟨b, hb, rfl⟩ := hal.resolve_left h0
    have hf := hi.fit b hb
    obtain ⟨len, hl, h1, h2⟩ := hf.buf
    have hcov : covers s.h.live (b.ptr - ptrSize) ptrSize = true :=
      covers_of hl (by simp only; omega) (by simp only; unfold ptrSize at *; omega)
    have hany : s.h.live.any (fun p => p.1 == b.buf) = true := by
      rw [List.any_eq_true]; exact ⟨_, hl, by simp⟩
    let l := s.h.live.filter (fun p => p.1 != b.buf)
    let h' : Heap := { s.h with live := l, mem := clobber l junk s.h.mem }
    have he : step s (.dealloc b.ptr junk) = some ⟨h', s.blocks.filter (fun c => c.ptr != b.ptr)⟩ := by
      simp only [step, alignedDealloc, h0, if_false, hcov, if_true, hf.stored, hany]
      rfl
    have hne : ∀ c ∈ s.blocks.filter (fun c => c.ptr != b.ptr), c ∈ s.blocks ∧ c.buf ≠ b.buf := by
      intro c hc
      rw [List.mem_filter] at hc
      refine ⟨hc.1, fun e => ?_⟩
      have := buf_inj hi hc.1 hb e
      subst this
      simp at hc
    have hin : ∀ c ∈ s.blocks, c.buf ≠ b.buf → ∀ n, (c.buf, n) ∈ s.h.live → (c.buf, n) ∈ l := by
      intro c _ hcb n hn
      exact List.mem_filter.2 ⟨hn, by simp [hcb]⟩
    refine ⟨_, he, ⟨hi.sep.filter _, fun p hp => hi.low p (List.mem_filter.1 hp).1, ?_, ?_⟩, ?_, ?_⟩
    · intro c hc
      obtain ⟨hc1, hc2⟩ := hne c hc
      refine (hi.fit c hc1).keep (hin c hc1 hc2) ?_
      intro n hn a h3 h4 _
      exact clobber_in (hin c hc1 hc2 n hn) h3 h4 _ _
    · exact hi.bufs.sublist (List.filter_sublist.map _)
    · intro _ ht p hp
      obtain ⟨hp1, hp2⟩ := List.mem_filter.1 hp
      obtain ⟨c, hc, hce⟩ := ht p hp1
      refine ⟨c, List.mem_filter.2 ⟨hc, ?_⟩, hce⟩
      simp only [bne_iff_ne, ne_eq] at hp2 ⊢
      intro e
      have := ptr_inj hi hc hb e
      subst this
      exact hp2 hce.symm
    · intro c _ hc a ha _
      obtain ⟨hc1, hc2⟩ := hne c hc
      obtain ⟨n, hn, h3, h4⟩ := (hi.fit c hc1).buf
      exact clobber_in (hin c hc1 hc2 n hn) (by have := ha.1; simp only; unfold ptrSize at *; omega)
        (by have := ha.2; simp only; omega) _ _

theorem good_step {s : St} (hi : Inv s) {op : Op} (hal : Allowed s op) : ∃ s', Good s op s' := by
  cases op with
  | alloc A size metaSize ans => exact good_alloc hi hal
  | dealloc ptr junk => exact good_dealloc hi hal
  | write a v => exact good_write hi hal

theorem life_inv {good : Bool} {s : St} (h : Life good s) : Inv s ∧ (good = true → Tight s) := by
  induction h with
  | start =>
    exact ⟨⟨by simp, by simp, by simp, by simp⟩, fun _ p hp => by cases hp⟩
  | step hl hal hn hs ih =>
    obtain ⟨t, hg⟩ := good_step ih.1 hal
    rw [hg.step, Option.some.injEq] at hs
    subst hs
    exact ⟨hg.inv, fun h => hg.tight hn (ih.2 h)⟩
  | fail hl hal hs ih =>
    obtain ⟨t, hg⟩ := good_step ih.1 hal
    rw [hg.step, Option.some.injEq] at hs
    subst hs
    exact ⟨hg.inv, fun h => by cases h⟩

theorem Inv.sound {s : St} (hi : Inv s) : Sound s := by
  refine ⟨fun b hb => (hi.fit b hb).aligned, ?_, ?_⟩
  · intro b hb
    obtain ⟨len, hl, h1, h2⟩ := (hi.fit b hb).buf
    exact ⟨_, hl, by simp only; omega, h2⟩
  · have hn := hi.bufs
    have hf := hi.fit
    have hs := hi.sep
    clear hi
    generalize s.blocks = l at *
    induction l with
    | nil => exact List.Pairwise.nil
    | cons b l ih =>
      rw [List.map_cons, List.nodup_cons] at hn
      rw [List.pairwise_cons]
      refine ⟨?_, ih hn.2 (fun c hc => hf c (List.mem_cons_of_mem _ hc))⟩
      intro c hc a ha hca
      have := Fit.apart hs (hf b List.mem_cons_self) (hf c (List.mem_cons_of_mem _ hc))
        (fun e => hn.1 (List.mem_map.2 ⟨c, hc, e.symm⟩)) (a := a) (by have := ha.1; omega) ha.2
      have h1 := hca.1
      have h2 := hca.2
      omega

end Foxxll.AlignedHeap
