import Verif.Spec.Ahead
import Verif.Proofs.BlockScheduler

set_option linter.unusedSimpArgs false
set_option linter.unusedVariables false
set_option linter.unusedSectionVars false

/-
Invariant of offline_lru_prefetching and the steps of the I/O threads.
-/
namespace Foxxll.Ahead
open Foxxll.Swap (SB Env POp Elem Op Res Abs Allowed Expected)

/-- Whether contents are left out of account; possible if there is only one value. -/
class Slack (D : Type) where
  ok : Prop
  one : ok → ∀ x y : D, x = y

variable {D : Type} [Slack D]

/-! ### Sequences -/

def isAcq : POp → Bool
  | .acquire | .acquireUninit => true
  | _ => false

def touches : POp → Bool
  | .acquire | .acquireUninit | .deinit => true
  | _ => false

/-- The operations of a block in a sequence. -/
def opsIn (S : List Elem) (c : Nat) : List POp := (S.filter fun x => x.id == c).map (·.op)

def HasAcq (S : List Elem) (c : Nat) : Prop := ∃ o ∈ opsIn S c, isAcq o = true

def First (S : List Elem) (c : Nat) : Prop := (opsIn S c).head? = some .acquire

/-- `c` is acquired before `g` is used again. -/
def Before (S : List Elem) (c g : Nat) : Prop :=
  ∃ U x V, S = U ++ x :: V ∧ x.id = c ∧ isAcq x.op = true ∧ ∀ y ∈ U, y.id = g → touches y.op = false

def curOps : Option Elem → Nat → List POp
  | none, _ => []
  | some x, c => if x.id = c then [x.op] else []

theorem opsIn_append (S T : List Elem) (c : Nat) : opsIn (S ++ T) c = opsIn S c ++ opsIn T c := by
  simp [opsIn]

theorem opsIn_cons_self (x : Elem) (S : List Elem) : opsIn (x :: S) x.id = x.op :: opsIn S x.id := by
  simp [opsIn]

theorem opsIn_cons_other {x : Elem} {c : Nat} (S : List Elem) (h : x.id ≠ c) : opsIn (x :: S) c = opsIn S c := by
  simp [opsIn, h]

theorem mem_opsIn {S : List Elem} {c : Nat} {o : POp} : o ∈ opsIn S c ↔ ∃ x ∈ S, x.id = c ∧ x.op = o := by
  simp only [opsIn, List.mem_map, List.mem_filter, beq_iff_eq]
  constructor
  · rintro ⟨x, ⟨h1, h2⟩, h3⟩; exact ⟨x, h1, h2, h3⟩
  · rintro ⟨x, h1, h2, h3⟩; exact ⟨x, ⟨h1, h2⟩, h3⟩

theorem hasAcq_iff {S : List Elem} {c : Nat} : HasAcq S c ↔ ∃ x ∈ S, x.id = c ∧ isAcq x.op = true := by
  constructor
  · rintro ⟨o, h1, h2⟩
    obtain ⟨x, h3, h4, rfl⟩ := mem_opsIn.1 h1
    exact ⟨x, h3, h4, h2⟩
  · rintro ⟨x, h3, h4, h2⟩
    exact ⟨x.op, mem_opsIn.2 ⟨x, h3, h4, rfl⟩, h2⟩

theorem HasAcq.mono {S : List Elem} {c : Nat} (h : HasAcq S c) (T : List Elem) : HasAcq (S ++ T) c := by
  obtain ⟨x, h1, h2⟩ := hasAcq_iff.1 h
  exact hasAcq_iff.2 ⟨x, by simp [h1], h2⟩

theorem First.mono {S : List Elem} {c : Nat} (h : First S c) (T : List Elem) : First (S ++ T) c := by
  unfold First at *
  rw [opsIn_append, List.head?_append, h]
  rfl

theorem First.hasAcq {S : List Elem} {c : Nat} (h : First S c) : HasAcq S c :=
  ⟨.acquire, List.mem_of_head? h, rfl⟩

theorem Before.mono {S : List Elem} {c g : Nat} (h : Before S c g) (T : List Elem) : Before (S ++ T) c g := by
  obtain ⟨U, x, V, h1, h2⟩ := h
  exact ⟨U, x, V ++ T, by simp [h1], h2⟩

theorem Before.hasAcq {S : List Elem} {c g : Nat} (h : Before S c g) : HasAcq S c := by
  obtain ⟨U, x, V, rfl, h2, h3, _⟩ := h
  exact hasAcq_iff.2 ⟨x, by simp, h2, h3⟩

theorem touches_of_isAcq {o : POp} (h : isAcq o = true) : touches o = true := by cases o <;> simp_all [isAcq, touches]

/-- Sequence of the first operation of a block. -/
theorem First.split {S : List Elem} {c : Nat} (h : First S c) :
    ∃ U x V, S = U ++ x :: V ∧ x.id = c ∧ x.op = .acquire ∧ ∀ y ∈ U, y.id ≠ c := by
  induction S with
  | nil => simp [First, opsIn] at h
  | cons y S ih =>
    by_cases e : y.id = c
    · subst e
      unfold First at h
      rw [opsIn_cons_self] at h
      exact ⟨[], y, S, rfl, rfl, by simpa using h, by simp⟩
    · unfold First at h
      rw [opsIn_cons_other S e] at h
      obtain ⟨U, x, V, h1, h2, h3, h4⟩ := ih h
      refine ⟨y :: U, x, V, by simp [h1], h2, h3, fun z hz => ?_⟩
      rcases List.mem_cons.1 hz with rfl | hz
      · exact e
      · exact h4 z hz

theorem First.before {S : List Elem} {c : Nat} (h : First S c) : Before S c c := by
  obtain ⟨U, x, V, h1, h2, h3, h4⟩ := h.split
  exact ⟨U, x, V, h1, h2, by rw [h3]; rfl, fun y hy e => absurd e (h4 y hy)⟩

theorem Before.trans {S : List Elem} {o c g : Nat} (h1 : Before S o c) (h2 : Before S c g) (hne : o ≠ c) : Before S o g := by
  obtain ⟨U, x, V, rfl, a1, a2, a3⟩ := h1
  obtain ⟨U', x', V', b, b1, b2, b3⟩ := h2
  refine ⟨U, x, V, rfl, a1, a2, fun y hy e => ?_⟩
  rcases List.append_eq_append_iff.1 b with ⟨W, hU', hxV⟩ | ⟨W, hU, hxV⟩
  · exact b3 y (by rw [hU']; simp [hy]) e
  · cases W with
    | nil =>
      rw [List.append_nil] at hU
      rw [hU] at hy
      exact b3 y hy e
    | cons z W =>
      simp only [List.cons_append, List.cons.injEq] at hxV
      obtain ⟨rfl, _⟩ := hxV
      have := a3 x' (by rw [hU]; simp) b1
      rw [touches_of_isAcq b2] at this; cases this

theorem Before.asymm {S : List Elem} {o c : Nat} (h1 : Before S o c) (h2 : Before S c o) (hne : o ≠ c) : False := by
  obtain ⟨U, x, V, rfl, a1, a2, a3⟩ := h1
  obtain ⟨U', x', V', b, b1, b2, b3⟩ := h2
  rcases List.append_eq_append_iff.1 b with ⟨W, hU', hxV⟩ | ⟨W, hU, hxV⟩
  · cases W with
    | nil =>
      simp only [List.nil_append, List.cons.injEq] at hxV
      obtain ⟨rfl, _⟩ := hxV
      exact hne (a1.symm.trans b1)
    | cons z W =>
      simp only [List.cons_append, List.cons.injEq] at hxV
      obtain ⟨rfl, _⟩ := hxV
      have := b3 x (by rw [hU']; simp) a1
      rw [touches_of_isAcq a2] at this; cases this
  · cases W with
    | nil =>
      simp only [List.nil_append, List.cons.injEq] at hxV
      obtain ⟨rfl, _⟩ := hxV
      exact hne (a1.symm.trans b1)
    | cons z W =>
      simp only [List.cons_append, List.cons.injEq] at hxV
      obtain ⟨rfl, _⟩ := hxV
      have := a3 x' (by rw [hU]; simp) b1
      rw [touches_of_isAcq b2] at this; cases this

/-- The first operation touches `g`: only `g` itself can be acquired before. -/
theorem Before.head {x : Elem} {S : List Elem} {c : Nat} (h : Before (x :: S) c x.id) (ht : touches x.op = true) : c = x.id := by
  obtain ⟨U, y, V, h1, h2, h3, h4⟩ := h
  cases U with
  | nil => simp only [List.nil_append, List.cons.injEq] at h1; rw [h1.1]; exact h2.symm
  | cons z U =>
    simp only [List.cons_append, List.cons.injEq] at h1
    have := h4 z (by simp) (by rw [h1.1])
    rw [h1.1] at ht; rw [ht] at this; cases this

/-- The first operation is taken away. -/
theorem Before.tail {x : Elem} {S : List Elem} {c g : Nat} (h : Before (x :: S) c g) (hx : x.id = c → isAcq x.op = false) : Before S c g := by
  obtain ⟨U, y, V, h1, h2, h3, h4⟩ := h
  cases U with
  | nil =>
    simp only [List.nil_append, List.cons.injEq] at h1
    rw [h1.1] at hx; rw [hx h2] at h3; cases h3
  | cons z U =>
    simp only [List.cons_append, List.cons.injEq] at h1
    exact ⟨U, y, V, h1.2, h2, h3, fun w hw => h4 w (by simp [hw])⟩

/-! ### The invariant -/

def rsv (s : St D) (c : Nat) : Option Nat := (s.sched c).bind (·.reserved)
def gvr (s : St D) (c : Nat) : Option Nat := (s.sched c).bind (·.giver)
def rrq (s : St D) (c : Nat) : Option Nat := (s.sched c).bind (·.readReq)
def opsOf (s : St D) (c : Nat) : List POp := ((s.sched c).map (·.ops)).getD []
/-- The internal block attached to or reserved for `c`. -/
def bufOf (s : St D) (c : Nat) : Option Nat := (s.b.blocks c).int.or (rsv s c)

/-- Where the client thread is: the scheduled operations `S` to come, the operation `cur` in progress, a block
`miss` whose `acquire` is listed but not yet provided for, a block `out` taken out of the sets of evictable
blocks, blocks `due` attached but whose read is not yet scheduled; `stop` if the schedule is being given up. -/
structure Ctx where
  S : List Elem
  cur : Option Elem := none
  miss : Option Nat := none
  out : Option Nat := none
  due : Nat → Prop := fun _ => False
  stop : Bool := false

/-- The read of block `i` is still to come. -/
def Rdg (k : Ctx) (s : St D) (i : Nat) : Prop :=
  (∃ r, rrq s i = some r ∧ r ∈ s.reads.map (·.id)) ∨
    (rrq s i = none ∧ (k.due i ∨ ∃ g w, gvr s i = some g ∧ s.wsched g = some w ∧ w.shallRead = true))

/-- `v`: the scheduler as the other algorithms would see it, all transfers done, reserved blocks free. -/
structure Base (k : Ctx) (v : Swap.St D) (s : St D) : Prop where
  blocks : v.blocks = s.b.blocks
  n : v.n = s.b.n
  held : v.held = s.b.held
  next : v.next = s.b.next
  remaining : v.remaining = s.b.remaining
  max : v.max = s.b.max
  vfree : ∀ p, p ∈ v.free ↔ p ∈ s.b.free ∨ ∃ c, rsv s c = some p
  freeNd : s.b.free.Nodup
  rsvFree : ∀ c p, rsv s c = some p → p ∉ s.b.free
  rsvInj : ∀ c d p, rsv s c = some p → rsv s d = some p → c = d
  vev : ∀ i, i ∈ v.evict.map (·.2) ↔ i ∈ s.freeEv ∨ i ∈ s.schedEv ∨ k.out = some i
  disj : ∀ i, i ∈ s.freeEv → i ∉ s.schedEv

structure Plan (k : Ctx) (s : St D) : Prop where
  ops : ∀ c, opsOf s c = curOps k.cur c ++ opsIn k.S c
  opsNe : ∀ c m, s.sched c = some m → m.ops ≠ []
  ids : ∀ x ∈ k.S, x.id < s.b.n
  rsvAcq : ∀ c p, rsv s c = some p → (s.b.blocks c).int = none ∧ HasAcq k.S c
  acqRsv : ∀ c, HasAcq k.S c → (s.b.blocks c).int = none → k.miss ≠ some c → rsv s c ≠ none
  pre : ∀ c, First k.S c → (s.b.blocks c).isInitialized = true → k.miss ≠ some c → (s.b.blocks c).int ≠ none
  evF : ∀ i, i ∈ s.freeEv → ¬ HasAcq k.S i ∧ ((s.b.blocks i).dirty = true → POp.deinit ∉ opsIn k.S i)
  evS : ∀ i, i ∈ s.schedEv → HasAcq k.S i ∨ ((s.b.blocks i).dirty = true ∧ POp.deinit ∈ opsIn k.S i) ∨
    shallClean (opsIn k.S i) = true

/-- Who holds the internal block of a write request. -/
def Holder (k : Ctx) (s : St D) (g : Nat) (w : Wrr) : Prop :=
  ((s.b.blocks g).int = some w.buf ∧ ¬ k.due g ∧ w.shallRead = false ∧
    ((w.taker = none ∧ s.next = [] ∧ ∀ o ∈ opsIn k.S g, touches o = false) ∨ (w.taker = some g ∧ gvr s g = some g))) ∨
  ∃ m, w.taker = some m ∧ m ≠ g ∧ gvr s m = some g ∧ bufOf s m = some w.buf ∧ ((s.b.blocks g).int = none ∨ k.due g) ∧
    (w.shallRead = true → w.target = m ∧ (s.b.blocks m).int ≠ none ∧ s.wsched m = none ∧ (s.b.blocks m).ext ≠ none ∧ (s.b.blocks m).dirty = false ∧
      (w.phase = .handled → rrq s m ≠ none ∨ k.due m)) ∧
    ((s.b.blocks m).int ≠ none → w.shallRead = true ∨ k.due m)

/-- A write request nobody waits for but the call that extracts the block: made by `release` although the block is
to be used before it is extracted.  The block may have lost its internal block or got another one, so this is possible
only if contents are not looked at. -/
def Stray (k : Ctx) (s : St D) (g : Nat) (w : Wrr) : Prop :=
  Slack.ok D ∧ w.taker = none ∧ w.shallRead = false ∧ ¬ k.due g ∧
    (k.stop = true ∨ shallClean (opsIn k.S g) = true ∧ ((s.b.blocks g).int = none → ¬ First k.S g))

theorem shallClean_append {l : List POp} (h : shallClean l = true) (r : List POp) : shallClean (l ++ r) = true := by
  induction l with
  | nil => cases h
  | cons o l ih => cases o <;> first | exact ih h | rfl | cases h

theorem shallClean_ne {l : List POp} (h : shallClean l = true) : l ≠ [] := by
  rintro rfl; cases h

theorem Stray.of {k k' : Ctx} {s s' : St D} {g : Nat} {w w' : Wrr} (h : Stray k s g w) (ht : w'.taker = w.taker) (hr : w'.shallRead = w.shallRead)
    (hd : k'.due g → k.due g) (hst : k'.stop = k.stop) (hS : ∃ T, opsIn k'.S g = opsIn k.S g ++ T) (hi : (s'.b.blocks g).int = none → (s.b.blocks g).int = none ∨ ¬ First k.S g) : Stray k' s' g w' := by
  obtain ⟨h0, h1, h2, h3, h45⟩ := h
  obtain ⟨T, hT⟩ := hS
  refine ⟨h0, by rw [ht, h1], by rw [hr, h2], fun hc => h3 (hd hc), ?_⟩
  rcases h45 with h4 | ⟨h4, h5⟩
  · exact .inl (hst.trans h4)
  refine .inr ⟨by rw [hT]; exact shallClean_append h4 T, fun hi' hf => ?_⟩
  have hn : ¬ First k.S g := by
    rcases hi hi' with h | h
    · exact h5 h
    · exact h
  apply hn
  unfold First at hf ⊢
  rw [hT] at hf
  cases hl : opsIn k.S g with
  | nil => exact absurd hl (shallClean_ne h4)
  | cons o l => rw [hl] at hf; exact hf

/-- Nothing but the state of the request or of the other blocks has changed. -/
theorem Stray.same {k k' : Ctx} {s s' : St D} {g : Nat} {w w' : Wrr} (h : Stray k s g w) (ht : w'.taker = w.taker) (hr : w'.shallRead = w.shallRead)
    (hd : k'.due g → k.due g) (hS : k'.S = k.S ∧ k'.stop = k.stop) (hi : (s'.b.blocks g).int = (s.b.blocks g).int) : Stray k' s' g w' :=
  h.of ht hr hd hS.2 ⟨[], by rw [hS.1]; simp⟩ (by rw [hi]; exact .inl)

structure Io (k : Ctx) (s : St D) : Prop where
  rrqOk : ∀ c r, rrq s c = some r → (s.b.blocks c).int ≠ none ∧ (s.b.blocks c).refs = 0 ∧ (s.b.blocks c).dirty = false ∧ (s.b.blocks c).ext ≠ none ∧
    First k.S c ∧ s.wsched c = none ∧ r < s.reqs
  rrqInj : ∀ c d r, rrq s c = some r → rrq s d = some r → c = d
  rrqW : ∀ c r g w, rrq s c = some r → gvr s c = some g → s.wsched g = some w → w.phase = .handled
  rdOk : ∀ x ∈ s.reads, ∃ c, rrq s c = some x.id ∧ (s.b.blocks c).int = some x.buf ∧ (s.b.blocks c).ext = some x.ext
  rdNd : (s.reads.map (·.id)).Nodup
  gvrOk : ∀ c g, gvr s c = some g → Before k.S c g ∧ (s.b.blocks g).dirty = false ∧ (s.b.blocks g).refs = 0 ∧
    (rsv s c ≠ none ∨ ((s.b.blocks c).int ≠ none ∧ (s.b.blocks c).refs = 0 ∧ First k.S c))
  gvrW : ∀ c g w, gvr s c = some g → s.wsched g = some w → w.taker = some c
  wOk : ∀ g w, s.wsched g = some w → (s.b.blocks g).ext = some w.ext ∧ (s.b.blocks g).dirty = false ∧
    ((s.b.blocks g).refs = 0 ∧ Holder k s g w ∨ Stray k s g w)
  dueOk : ∀ c, k.due c → (s.b.blocks c).int ≠ none ∧ (s.b.blocks c).refs = 0 ∧ (s.b.blocks c).dirty = false ∧ (s.b.blocks c).ext ≠ none ∧ First k.S c

structure View (k : Ctx) (v : Swap.St D) (s : St D) : Prop where
  intact : ∀ g w, s.wsched g = some w → (∀ m, w.taker = some m → rrq s m = none) → s.b.mem w.buf = v.disk w.ext
  vdN : ∀ e, (∀ g w, s.wsched g = some w → w.phase = .pending → w.ext ≠ e) → v.disk e = s.b.disk e
  vmR : ∀ i p e, Rdg k s i → (s.b.blocks i).int = some p → (s.b.blocks i).ext = some e → v.mem p = v.disk e
  vmN : ∀ p, (∀ i, (s.b.blocks i).int = some p → ¬ Rdg k s i) → v.mem p = s.b.mem p

structure Inv (dflt : D) (a : Abs D) (k : Ctx) (v : Swap.St D) (s : St D) : Prop where
  sw : Swap.Inv dflt v a
  base : Base k v s
  plan : Plan k s
  io : Io k s
  view : View k v s

/-- What the I/O threads leave alone, up to the write requests. -/
structure Fr0 (s s' : St D) : Prop where
  b : s'.b = { s.b with mem := s'.b.mem, disk := s'.b.disk }
  freeEv : s'.freeEv = s.freeEv
  schedEv : s'.schedEv = s.schedEv
  pred : s'.pred = s.pred
  next : s'.next = s.next
  sched : ∀ c, (s'.sched c).map (fun m => { m with readReq := none }) = (s.sched c).map (fun m => { m with readReq := none })

/-- What the I/O threads leave alone. -/
structure Fr (s s' : St D) : Prop extends Fr0 s s' where
  rrqMono : ∀ c r, rrq s c = some r → rrq s' c = some r
  wsched : ∀ g, (s'.wsched g).map (fun w => { w with phase := .pending }) = (s.wsched g).map (fun w => { w with phase := .pending })

theorem Fr0.refl (s : St D) : Fr0 s s := ⟨rfl, rfl, rfl, rfl, rfl, fun _ => rfl⟩

theorem Fr.refl (s : St D) : Fr s s := ⟨Fr0.refl s, fun _ _ h => h, fun _ => rfl⟩

theorem Fr0.trans {s t u : St D} (h1 : Fr0 s t) (h2 : Fr0 t u) : Fr0 s u :=
  ⟨by rw [h2.b, h1.b], by rw [h2.freeEv, h1.freeEv], by rw [h2.schedEv, h1.schedEv], by rw [h2.pred, h1.pred], by rw [h2.next, h1.next],
   fun c => by rw [h2.sched, h1.sched]⟩

theorem Fr.trans {s t u : St D} (h1 : Fr s t) (h2 : Fr t u) : Fr s u := ⟨h1.toFr0.trans h2.toFr0, fun c r h => h2.rrqMono c r (h1.rrqMono c r h), fun g => by rw [h2.wsched, h1.wsched]⟩

theorem Fr0.blocks {s s' : St D} (h : Fr0 s s') : s'.b.blocks = s.b.blocks := by rw [h.b]

theorem Fr0.rsv {s s' : St D} (h : Fr0 s s') (c : Nat) : rsv s' c = rsv s c := by
  have := h.sched c
  unfold Ahead.rsv
  cases h1 : s'.sched c <;> cases h2 : s.sched c <;> rw [h1, h2] at this <;> simp_all

theorem Fr0.gvr {s s' : St D} (h : Fr0 s s') (c : Nat) : gvr s' c = gvr s c := by
  have := h.sched c
  unfold Ahead.gvr
  cases h1 : s'.sched c <;> cases h2 : s.sched c <;> rw [h1, h2] at this <;> simp_all

theorem Fr0.opsOf {s s' : St D} (h : Fr0 s s') (c : Nat) : opsOf s' c = opsOf s c := by
  have := h.sched c
  unfold Ahead.opsOf
  cases h1 : s'.sched c <;> cases h2 : s.sched c <;> rw [h1, h2] at this <;> simp_all

theorem Fr.wNone {s s' : St D} (h : Fr s s') (g : Nat) : s'.wsched g = none ↔ s.wsched g = none := by
  have := h.wsched g
  cases h1 : s'.wsched g <;> cases h2 : s.wsched g <;> rw [h1, h2] at this <;> simp_all

theorem Fr.wSome {s s' : St D} (h : Fr s s') {g : Nat} {w : Wrr} (hw : s.wsched g = some w) : ∃ ph, s'.wsched g = some { w with phase := ph } := by
  have := h.wsched g
  rw [hw] at this
  cases h1 : s'.wsched g with
  | none => rw [h1] at this; cases this
  | some w' =>
    rw [h1] at this
    cases w; cases w'
    simp only [Option.map_some, Option.some.injEq, Wrr.mk.injEq] at this
    obtain ⟨-, rfl, rfl, rfl, rfl, rfl⟩ := this
    exact ⟨_, rfl⟩

theorem Base.fr {k : Ctx} {v : Swap.St D} {s s' : St D} (h : Base k v s) (f : Fr0 s s') : Base k v s' := by
  have hb := f.b
  have e1 : s'.b.free = s.b.free := by rw [hb]
  refine ⟨by rw [hb]; exact h.blocks, by rw [hb]; exact h.n, by rw [hb]; exact h.held, by rw [hb]; exact h.next, by rw [hb]; exact h.remaining,
    by rw [hb]; exact h.max, ?_, by rw [e1]; exact h.freeNd, ?_, ?_, ?_, ?_⟩
  · intro p; simp only [f.rsv, e1]; exact h.vfree p
  · intro c p; rw [f.rsv, e1]; exact h.rsvFree c p
  · intro c d p; rw [f.rsv, f.rsv]; exact h.rsvInj c d p
  · rw [f.freeEv, f.schedEv]; exact h.vev
  · rw [f.freeEv, f.schedEv]; exact h.disj

theorem Plan.fr {k : Ctx} {s s' : St D} (h : Plan k s) (f : Fr0 s s') : Plan k s' := by
  have hb := f.blocks
  have hn : s'.b.n = s.b.n := by rw [f.b]
  refine ⟨fun c => by rw [f.opsOf]; exact h.ops c, ?_, by rw [hn]; exact h.ids, fun c p => by rw [f.rsv, hb]; exact h.rsvAcq c p,
    fun c => by rw [f.rsv, hb]; exact h.acqRsv c, fun c => by rw [hb]; exact h.pre c, by rw [f.freeEv, hb]; exact h.evF, by rw [f.schedEv, hb]; exact h.evS⟩
  intro c m hm
  have := f.sched c
  rw [hm] at this
  cases h2 : s.sched c with
  | none => rw [h2] at this; cases this
  | some m2 =>
    rw [h2] at this
    simp only [Option.map_some, Option.some.injEq, Meta.mk.injEq] at this
    rw [this.2.2.2]; exact h.opsNe c m2 h2

/-! ### Changes of the set `due` -/

theorem Rdg.congr_due {k k' : Ctx} {s : St D} {i : Nat} (h : rrq s i = none → (k.due i ↔ k'.due i) ∨ ∃ g w, gvr s i = some g ∧ s.wsched g = some w ∧ w.shallRead = true) :
    Rdg k s i ↔ Rdg k' s i := by
  unfold Rdg
  constructor
  · rintro (h1 | ⟨h1, h2⟩)
    · exact .inl h1
    · refine .inr ⟨h1, ?_⟩
      rcases h h1 with h3 | h3
      · rw [← h3]; exact h2
      · exact .inr h3
  · rintro (h1 | ⟨h1, h2⟩)
    · exact .inl h1
    · refine .inr ⟨h1, ?_⟩
      rcases h h1 with h3 | h3
      · rw [h3]; exact h2
      · exact .inr h3

theorem View.congr {k k' : Ctx} {v : Swap.St D} {s : St D} (h : View k v s) (hr : ∀ i, Rdg k s i ↔ Rdg k' s i) : View k' v s :=
  ⟨h.intact, h.vdN, fun i p e h1 => h.vmR i p e ((hr i).2 h1), fun p h1 => h.vmN p fun i hi hc => h1 i hi ((hr i).1 hc)⟩

/-- A block whose read is on its way is no longer due. -/
theorem Inv.dropDue {dflt : D} {a : Abs D} {k : Ctx} {v : Swap.St D} {s : St D} (h : Inv dflt a k v s) (due : Nat → Prop)
    (hsub : ∀ i, due i → k.due i)
    (hd : ∀ m, k.due m → ¬ due m → s.wsched m = none ∧ (∀ g w, gvr s m = some g → s.wsched g = some w → w.shallRead = true ∧ (w.phase = .handled → rrq s m ≠ none)) ∧
      (rrq s m = none → ∃ g w, gvr s m = some g ∧ s.wsched g = some w ∧ w.shallRead = true)) :
    Inv dflt a { k with due := due } v s := by
  refine ⟨h.sw, ⟨h.base.blocks, h.base.n, h.base.held, h.base.next, h.base.remaining, h.base.max, h.base.vfree, h.base.freeNd, h.base.rsvFree, h.base.rsvInj, h.base.vev, h.base.disj⟩,
    ⟨h.plan.ops, h.plan.opsNe, h.plan.ids, h.plan.rsvAcq, h.plan.acqRsv, h.plan.pre, h.plan.evF, h.plan.evS⟩, ?_, ?_⟩
  · refine ⟨h.io.rrqOk, h.io.rrqInj, h.io.rrqW, h.io.rdOk, h.io.rdNd, h.io.gvrOk, h.io.gvrW, ?_, fun c hc => h.io.dueOk c (hsub c hc)⟩
    intro g w hw
    obtain ⟨h1, h2, ⟨h3, h4⟩ | h4⟩ := h.io.wOk g w hw
    case inr => exact ⟨h1, h2, .inr (h4.same rfl rfl (hsub g) ⟨rfl, rfl⟩ rfl)⟩
    refine ⟨h1, h2, .inl ⟨h3, ?_⟩⟩
    rcases h4 with ⟨b1, b2, b3, b4⟩ | ⟨m, b1, b2, b3, b4, b5, b6, b7⟩
    · exact .inl ⟨b1, fun hc => b2 (hsub g hc), b3, b4⟩
    · refine .inr ⟨m, b1, b2, b3, b4, ?_, fun hs => ?_, fun hi => ?_⟩
      · rcases b5 with b5 | b5
        · exact .inl b5
        · by_cases e : due g
          · exact .inr e
          · have := (hd g b5 e).1; rw [this] at hw; cases hw
      · obtain ⟨c1, c2, c3, c4, c5, c6⟩ := b6 hs
        refine ⟨c1, c2, c3, c4, c5, fun hp => ?_⟩
        rcases c6 hp with c6 | c6
        · exact .inl c6
        · by_cases e : due m
          · exact .inr e
          · exact .inl (((hd m c6 e).2.1 g w b3 hw).2 hp)
      · rcases b7 hi with b7 | b7
        · exact .inl b7
        · by_cases e : due m
          · exact .inr e
          · exact .inl ((hd m b7 e).2.1 g w b3 hw).1
  · refine h.view.congr fun i => Rdg.congr_due fun hr => ?_
    by_cases e1 : k.due i
    · by_cases e2 : due i
      · exact .inl ⟨fun _ => e2, fun _ => e1⟩
      · exact .inr ((hd i e1 e2).2.2 hr)
    · exact .inl ⟨fun hc => absurd hc e1, fun hc => absurd (hsub i hc) e1⟩

/-- A block whose read is scheduled may be called due. -/
theorem Inv.addDue {dflt : D} {a : Abs D} {k : Ctx} {v : Swap.St D} {s : St D} (h : Inv dflt a k v s) (due : Nat → Prop)
    (hsub : ∀ i, k.due i → due i)
    (hd : ∀ m, due m → ¬ k.due m → s.wsched m = none ∧ (rrq s m = none → ∃ g w, gvr s m = some g ∧ s.wsched g = some w ∧ w.shallRead = true) ∧
      (s.b.blocks m).int ≠ none ∧ (s.b.blocks m).refs = 0 ∧ (s.b.blocks m).dirty = false ∧ (s.b.blocks m).ext ≠ none ∧ First k.S m) :
    Inv dflt a { k with due := due } v s := by
  refine ⟨h.sw, ⟨h.base.blocks, h.base.n, h.base.held, h.base.next, h.base.remaining, h.base.max, h.base.vfree, h.base.freeNd, h.base.rsvFree, h.base.rsvInj, h.base.vev, h.base.disj⟩,
    ⟨h.plan.ops, h.plan.opsNe, h.plan.ids, h.plan.rsvAcq, h.plan.acqRsv, h.plan.pre, h.plan.evF, h.plan.evS⟩, ?_, ?_⟩
  · refine ⟨h.io.rrqOk, h.io.rrqInj, h.io.rrqW, h.io.rdOk, h.io.rdNd, h.io.gvrOk, h.io.gvrW, ?_, fun c hc => ?_⟩
    · intro g w hw
      obtain ⟨h1, h2, ⟨h3, h4⟩ | h4⟩ := h.io.wOk g w hw
      case inr =>
        refine ⟨h1, h2, .inr (h4.same rfl rfl (fun hc => ?_) ⟨rfl, rfl⟩ rfl)⟩
        by_cases e : k.due g
        · exact e
        · have := (hd g hc e).1; rw [this] at hw; cases hw
      refine ⟨h1, h2, .inl ⟨h3, ?_⟩⟩
      rcases h4 with ⟨b1, b2, b3, b4⟩ | ⟨m, b1, b2, b3, b4, b5, b6, b7⟩
      · refine .inl ⟨b1, fun hc => ?_, b3, b4⟩
        have := (hd g hc b2).1
        rw [this] at hw; cases hw
      · refine .inr ⟨m, b1, b2, b3, b4, b5.imp id (hsub g), fun hs => ?_, fun hi => (b7 hi).imp id (hsub m)⟩
        obtain ⟨c1, c2, c3, c4, c5, c6⟩ := b6 hs
        exact ⟨c1, c2, c3, c4, c5, fun hp => (c6 hp).imp id (hsub m)⟩
    · by_cases e : k.due c
      · exact h.io.dueOk c e
      · exact (hd c hc e).2.2
  · refine h.view.congr fun i => Rdg.congr_due fun hr => ?_
    by_cases e1 : k.due i
    · exact .inl ⟨fun _ => hsub i e1, fun _ => e1⟩
    · by_cases e2 : due i
      · exact .inr ((hd i e2 e1).2.1 hr)
      · exact .inl ⟨fun hc => absurd hc e1, fun hc => absurd hc e2⟩

/-! ### Transfers -/

theorem put_same {α : Type} (f : Nat → Option α) (i : Nat) (x : Option α) : put f i x i = x := by simp [put]
theorem put_other {α : Type} (f : Nat → Option α) {i j : Nat} (x : Option α) (h : j ≠ i) : put f i x j = f j := by simp [put, h]
@[simp] theorem setWrr_same (s : St D) (i : Nat) (w) : (s.setWrr i w).wsched i = w := put_same _ _ _
theorem setWrr_other (s : St D) {i j : Nat} (w) (h : j ≠ i) : (s.setWrr i w).wsched j = s.wsched j := put_other _ _ h
@[simp] theorem setMeta_same (s : St D) (i : Nat) (m) : (s.setMeta i m).sched i = m := put_same _ _ _
theorem setMeta_other (s : St D) {i j : Nat} (m) (h : j ≠ i) : (s.setMeta i m).sched j = s.sched j := put_other _ _ h

/-- Attached buffers are neither free nor reserved. -/
theorem Inv.int_rsv {dflt : D} {a : Abs D} {k : Ctx} {v : Swap.St D} {s : St D} (h : Inv dflt a k v s) {i c p : Nat}
    (hi : (s.b.blocks i).int = some p) (hc : rsv s c = some p) : False := by
  have h1 := h.sw.core.att i p (by rw [h.base.blocks]; exact hi)
  exact h1.2.2.1 ((h.base.vfree p).2 (.inr ⟨c, hc⟩))

theorem Inv.int_inj {dflt : D} {a : Abs D} {k : Ctx} {v : Swap.St D} {s : St D} (h : Inv dflt a k v s) {i j p : Nat}
    (hi : (s.b.blocks i).int = some p) (hj : (s.b.blocks j).int = some p) : i = j :=
  h.sw.core.inj i j p (by rw [h.base.blocks]; exact hi) (by rw [h.base.blocks]; exact hj)

theorem Inv.ext_inj {dflt : D} {a : Abs D} {k : Ctx} {v : Swap.St D} {s : St D} (h : Inv dflt a k v s) {i j e : Nat}
    (hi : (s.b.blocks i).ext = some e) (hj : (s.b.blocks j).ext = some e) : i = j :=
  h.sw.core.extOwn i j e (by rw [h.base.blocks]; exact hi) (by rw [h.base.blocks]; exact hj)

/-- A write request whose transfer is not done, or whose handler has not started a read, leaves the buffer alone. -/
theorem Inv.idle_taker {dflt : D} {a : Abs D} {k : Ctx} {v : Swap.St D} {s : St D} (h : Inv dflt a k v s) {g : Nat} {w : Wrr}
    (hw : s.wsched g = some w) (hp : w.phase ≠ .handled) : ∀ m, w.taker = some m → rrq s m = none := by
  intro m hm
  cases hr : rrq s m with
  | none => rfl
  | some r =>
    exfalso
    rcases (h.io.wOk g w hw).2.2 with ⟨_, ⟨b1, b2, b3, b4⟩ | ⟨m', b1, b2, b3, b4⟩⟩ | b
    · rcases b4 with b4 | b4
      · rw [b4.1] at hm; cases hm
      · rw [b4.1] at hm; cases hm
        exact hp (h.io.rrqW g r g w hr b4.2 hw)
    · rw [b1] at hm; cases hm
      exact hp (h.io.rrqW m r g w hr b3 hw)
    · rw [b.2.1] at hm; cases hm

/-- Change of the phase, to `moved` or `flagged`. -/
theorem Inv.phase {dflt : D} {a : Abs D} {k : Ctx} {v : Swap.St D} {s : St D} (h : Inv dflt a k v s) {g : Nat} {w : Wrr} (hw : s.wsched g = some w)
    (ph : Phase) (disk : Nat → D) (hp : w.phase ≠ .handled) (hph : ph ≠ .pending)
    (hh : ph = .handled → ∀ m, w.taker = some m → w.shallRead = true → k.due m)
    (hd : ∀ e, e ≠ w.ext → disk e = s.b.disk e) (hd1 : disk w.ext = v.disk w.ext) :
    Inv dflt a k v { s.setWrr g (some { w with phase := ph }) with b := { s.b with disk := disk } } := by
  have hidle := h.idle_taker hw hp
  have hwn : ∀ j, (s.setWrr g (some { w with phase := ph })).wsched j = none → s.wsched j = none := by
    intro j hj
    by_cases e : j = g
    · subst e; simp at hj
    · rwa [setWrr_other _ _ e] at hj
  have hwn' : ∀ j, s.wsched j = none → (s.setWrr g (some { w with phase := ph })).wsched j = none := by
    intro j hj
    by_cases e : j = g
    · subst e; rw [hw] at hj; cases hj
    · rwa [setWrr_other _ _ e]
  have hws : ∀ j x, (s.setWrr g (some { w with phase := ph })).wsched j = some x → ∃ y, s.wsched j = some y ∧ (x = y ∧ j ≠ g ∨ j = g ∧ y = w ∧ x = { w with phase := ph }) := by
    intro j x hj
    by_cases e : j = g
    · subst e; simp only [setWrr_same, Option.some.injEq] at hj; exact ⟨w, hw, .inr ⟨rfl, rfl, hj.symm⟩⟩
    · rw [setWrr_other _ _ e] at hj; exact ⟨x, hj, .inl ⟨rfl, e⟩⟩
  refine ⟨h.sw, ⟨h.base.blocks, h.base.n, h.base.held, h.base.next, h.base.remaining, h.base.max, h.base.vfree, h.base.freeNd, h.base.rsvFree, h.base.rsvInj, h.base.vev, h.base.disj⟩,
    ⟨h.plan.ops, h.plan.opsNe, h.plan.ids, h.plan.rsvAcq, h.plan.acqRsv, h.plan.pre, h.plan.evF, h.plan.evS⟩, ?_, ?_⟩
  · refine ⟨fun c r hr => ?_, h.io.rrqInj, fun c r g' x hr hg hx => ?_, h.io.rdOk, h.io.rdNd, h.io.gvrOk, fun c g' x hg hx => ?_, fun g' x hx => ?_, h.io.dueOk⟩
    · obtain ⟨a1, a2, a3, a4, a5, a6, a7⟩ := h.io.rrqOk c r hr
      exact ⟨a1, a2, a3, a4, a5, hwn' c a6, a7⟩
    · obtain ⟨y, hy, ⟨rfl, -⟩ | ⟨rfl, rfl, rfl⟩⟩ := hws g' x hx
      · exact h.io.rrqW c r g' x hr hg hy
      · have hq := hidle c (h.io.gvrW c g' y hg hy)
        have hr' : rrq s c = some r := hr
        rw [hq] at hr'; cases hr'
    · obtain ⟨y, hy, ⟨rfl, -⟩ | ⟨rfl, rfl, rfl⟩⟩ := hws g' x hx
      · exact h.io.gvrW c g' x hg hy
      · exact h.io.gvrW c g' y hg hy
    · obtain ⟨y, hy, hxy⟩ := hws g' x hx
      have hext : x.ext = y.ext ∧ x.buf = y.buf ∧ x.taker = y.taker ∧ x.shallRead = y.shallRead ∧ x.target = y.target := by
        rcases hxy with ⟨rfl, -⟩ | ⟨rfl, rfl, rfl⟩ <;> exact ⟨rfl, rfl, rfl, rfl, rfl⟩
      obtain ⟨a1, a2, ⟨a3, a4⟩ | a4⟩ := h.io.wOk g' y hy
      case inr => exact ⟨by rw [hext.1]; exact a1, a2, .inr (a4.same hext.2.2.1 hext.2.2.2.1 id ⟨rfl, rfl⟩ rfl)⟩
      refine ⟨by rw [hext.1]; exact a1, a2, .inl ⟨a3, ?_⟩⟩
      rcases a4 with ⟨b1, b2, b3, b4⟩ | ⟨m, b1, b2, b3, b4, b5, b6, b7⟩
      · exact .inl ⟨by rw [hext.2.1]; exact b1, b2, by rw [hext.2.2.2.1]; exact b3, by rw [hext.2.2.1]; exact b4⟩
      · refine .inr ⟨m, by rw [hext.2.2.1]; exact b1, b2, b3, by rw [hext.2.1]; exact b4, b5, fun hs => ?_, by rw [hext.2.2.2.1]; exact b7⟩
        rw [hext.2.2.2.1] at hs
        obtain ⟨c1, c2, c3, c4, c5, c6⟩ := b6 hs
        refine ⟨by rw [hext.2.2.2.2]; exact c1, c2, hwn' m c3, c4, c5, fun hx' => ?_⟩
        rcases hxy with ⟨rfl, -⟩ | ⟨rfl, rfl, rfl⟩
        · exact c6 hx'
        · exact .inr (hh hx' m b1 hs)
  · have hrd : ∀ i, Rdg k s i ↔ Rdg k { s.setWrr g (some { w with phase := ph }) with b := { s.b with disk := disk } } i := by
      intro i
      unfold Rdg
      have hx : (∃ g' w', gvr s i = some g' ∧ s.wsched g' = some w' ∧ w'.shallRead = true) ↔
          (∃ g' w', gvr s i = some g' ∧ (s.setWrr g (some { w with phase := ph })).wsched g' = some w' ∧ w'.shallRead = true) := by
        constructor
        · rintro ⟨g', w', h1, h2, h3⟩
          by_cases e : g' = g
          · subst e
            rw [hw] at h2; cases h2
            exact ⟨g', _, h1, setWrr_same _ _ _, h3⟩
          · exact ⟨g', w', h1, by rw [setWrr_other _ _ e]; exact h2, h3⟩
        · rintro ⟨g', w', h1, h2, h3⟩
          obtain ⟨y, hy, ⟨rfl, -⟩ | ⟨rfl, rfl, rfl⟩⟩ := hws g' w' h2
          · exact ⟨g', w', h1, hy, h3⟩
          · exact ⟨g', y, h1, hy, h3⟩
      constructor
      · rintro (h1 | ⟨h1, h2⟩)
        · exact .inl h1
        · exact .inr ⟨h1, h2.imp id hx.1⟩
      · rintro (h1 | ⟨h1, h2⟩)
        · exact .inl h1
        · exact .inr ⟨h1, h2.imp id hx.2⟩
    refine ⟨fun g' x hx hi => ?_, fun e he => ?_, fun i p e hi => h.view.vmR i p e ((hrd i).2 hi), fun p hp' => h.view.vmN p fun i hi hc => hp' i hi ((hrd i).1 hc)⟩
    · obtain ⟨y, hy, ⟨rfl, -⟩ | ⟨rfl, rfl, rfl⟩⟩ := hws g' x hx
      · exact h.view.intact g' x hy hi
      · exact h.view.intact g' y hy hi
    · by_cases ee : e = w.ext
      · subst ee; exact hd1.symm
      · show v.disk e = disk e
        rw [hd e ee]
        refine h.view.vdN e fun g' y hy hyp => ?_
        by_cases e' : g' = g
        · subst e'; rw [hw] at hy; cases hy; exact fun hc => ee hc.symm
        · exact he g' y (by show (s.setWrr g _).wsched g' = some y; rw [setWrr_other _ _ e']; exact hy) hyp
