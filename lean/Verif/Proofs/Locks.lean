import Verif.Spec.Locks
/-
Lemmas for properties C117 and C118: order of the mutexes, and the mutexes that guard shared data.
-/
set_option linter.unusedSimpArgs false
namespace Foxxll.Locks

/-- The order in which mutexes are locked. -/
def rank : Mx → Nat
  | .single .manager => 0
  | .single .config => 1
  | .manager => 2
  | .alloc _ => 3
  | .single .queues => 4
  | .queues => 5
  | .one _ | .reads _ | .writes _ | .aio _ => 6
  | .qstate _ | .fd _ | .mem _ => 7
  | .waiters _ => 8
  | .rstate _ | .switch _ => 9
  | .single .stats => 10
  | .fread _ | .fwrite _ | .swait | .sread | .swrite | .sio | .slist => 11

/-- The mutex that protects the data. -/
def guard : Fld → Option Mx
  | .inst _ | .devId | .file _ | .error _ => none
  | .queues => some .queues
  | .one q => some (.one q)
  | .reads q => some (.reads q)
  | .writes q => some (.writes q)
  | .aio q => some (.aio q)
  | .qstate q => some (.qstate q)
  | .waiters r => some (.waiters r)
  | .rstate r => some (.rstate r)
  | .switch s => some (.switch s)
  | .space _ => some .manager
  | .counts => some .manager
  | .fd f => some (.fd f)
  | .mem f => some (.mem f)
  | .fread d => some (.fread d)
  | .fwrite d => some (.fwrite d)
  | .swait => some .swait
  | .sread => some .sread
  | .swrite => some .swrite
  | .sio => some .sio
  | .slist => some .slist

/-- The mutex under which data are written. -/
def wguard : Fld → Option Mx
  | .inst k => some (.single k)
  | x => guard x

/-- Waits that may happen with locked mutexes. -/
def short : Cond → Bool
  | .token _ | .lockFile _ => true
  | _ => false

/-- All mutexes of `h` are below `n`. -/
def Bd (h : List Mx) (n : Nat) : Prop := ∀ k ∈ h, rank k < n

theorem bd_nil (n : Nat) : Bd [] n := by simp [Bd]
theorem bd_cons (m : Mx) (h : List Mx) (n : Nat) : Bd (m :: h) n ↔ rank m < n ∧ Bd h n := by simp [Bd]

/-- What is checked: `o` the order of mutexes, `g` the protection of data. -/
def Ord (o g : Prop) : List Mx → List Act → Prop
  | h, [] => h = []
  | h, .lock m :: l => (o → Bd h (rank m)) ∧ Ord o g (m :: h) l
  | h, .unlock m :: l => ∃ h', h = m :: h' ∧ Ord o g h' l
  | h, .rd x :: l => (g → ∀ m, guard x = some m → m ∈ h) ∧ Ord o g h l
  | h, .wr x :: l => (∀ m, wguard x = some m → m ∈ h) ∧ Ord o g h l
  | h, .wait c :: l => (o → short c = true ∨ h = []) ∧ Ord o g h l

/-- Lowest mutex of a function. -/
def lvl : Fn → Nat
  | .get .manager => 0
  | .get .config => 1
  | .get .queues => 4
  | .get .stats => 10
  | .ctor .manager => 1
  | .ctor .queues => 10
  | .ctor .config => 11
  | .ctor .stats => 11
  | .destroyQueues => 4
  | .openFile _ => 7
  | .createFile _ => 1
  | .lockFpb _ => 4
  | .setSize _ | .sizeFd _ | .sizeMem _ | .discard _ | .close _ => 7
  | .started _ | .finished _ | .canceled _ | .opFinished _ | .waitStarted | .snapshot => 10
  | .makeQueue _ | .addReq _ | .cancelReq _ | .getQueue | .setPrio | .queuesDtor => 5
  | .newQueue _ | .stopThread _ => 7
  | .queueAdd _ | .queueCancel _ => 6
  | .submit _ => 4
  | .poll _ => 9
  | .addWaiter _ _ | .deleteWaiter _ _ | .notify _ => 8
  | .switchOn _ => 9
  | .newBlocks | .deleteBlock | .totals => 2
  | _ => 0

/-- Functions that are called without locked mutexes: they call code of the user or wait. -/
def top : Fn → Bool
  | .serveFile _ _ | .wait _ | .waitAny _ | .completed _ | .cancel _ _ | .serve _ _ | .worker1 _ | .workerQ _ | .aioCompleted _ | .aioCancel _ _ | .aioKernel _ _
  | .aioPost _ | .aioWait _ | .handleEvents _ | .stopThread _ => true
  | _ => false

/-- Functions that violate the order. -/
def BadO : Fn → Prop
  | .aioKernel _ _ => True
  | .queuesDtor => True
  | _ => False

/-- Functions that access data without the mutex. -/
def BadG : Fn → Prop
  | .snapshot => True
  | .sizeMem _ => True
  | _ => False

/-- When a function may be called. -/
def Pre (o : Prop) (f : Fn) (h : List Mx) : Prop := o → (top f = true → h = []) ∧ Bd h (lvl f)

/-- Programs that may run with the mutexes `h` locked. -/
def Fits (A : Fn → Prop) (o g : Prop) : List Mx → P → Prop
  | _, .nil => True
  | h, .rd x => g → ∀ m, guard x = some m → m ∈ h
  | h, .wr x => ∀ m, wguard x = some m → m ∈ h
  | h, .wait c => o → short c = true ∨ h = []
  | h, .seq p q => Fits A o g h p ∧ Fits A o g h q
  | h, .alt p q => Fits A o g h p ∧ Fits A o g h q
  | h, .star p => Fits A o g h p
  | h, .any p => ∀ n, Fits A o g h (p n)
  | h, .locked m p => (o → Bd h (rank m)) ∧ Fits A o g (m :: h) p
  | h, .call f => A f → Pre o f h
  | h, .user => o → h = []

theorem ord_of {A : Fn → Prop} {o g : Prop} (hb : ∀ f h, A f → Pre o f h → Fits A o g h (body f)) {p : P} {l : List Act} (ht : Tr A p l) :
    ∀ {h}, Fits A o g h p → ∀ {k}, Ord o g h k → Ord o g h (l ++ k) := by
  induction ht with
  | nil => intro h _ k hk; exact hk
  | rd => intro h hf k hk; exact ⟨hf, hk⟩
  | wr => intro h hf k hk; exact ⟨hf, hk⟩
  | wait => intro h hf k hk; exact ⟨hf, hk⟩
  | seq _ _ ih1 ih2 => intro h hf k hk; rw [List.append_assoc]; exact ih1 hf.1 (ih2 hf.2 hk)
  | stop _ ih => intro h hf k hk; exact ih hf.1 hk
  | left _ ih => intro h hf k hk; exact ih hf.1 hk
  | right _ ih => intro h hf k hk; exact ih hf.2 hk
  | done => intro h _ k hk; exact hk
  | again _ _ ih1 ih2 => intro h hf k hk; rw [List.append_assoc]; exact ih1 hf (ih2 hf hk)
  | any n _ ih => intro h hf k hk; exact ih (hf n) hk
  | locked _ ih =>
    intro h hf k hk
    rw [List.cons_append, List.cons_append, List.append_assoc]
    exact ⟨hf.1, ih hf.2 ⟨h, rfl, hk⟩⟩
  | call ha _ ih => intro h hf k hk; exact ih (hb _ _ ha (hf ha)) hk
  | user0 => intro h _ k hk; exact hk
  | user _ _ _ ih1 ih2 =>
    intro h hf k hk
    rw [List.append_assoc]
    refine ih1 ?_ (ih2 hf hk)
    intro _ ho
    rw [hf ho]
    exact ⟨fun _ => rfl, bd_nil _⟩

theorem fits_order (f : Fn) (h : List Mx) (ha : ¬ BadO f) (hp : Pre True f h) : Fits (fun f => ¬ BadO f) True False h (body f) := by
  have ht := (hp trivial).1
  have hn : ∀ n, lvl f ≤ n → Bd h n := fun n hn k hk => Nat.lt_of_lt_of_le ((hp trivial).2 k hk) hn
  clear hp
  cases f with
  | get k => cases k <;> simp [lvl] at hn <;> simp [Fits, body, opt, upd, Pre, rank, lvl, top, short, BadO, wguard, guard, bd_cons, bd_nil, hn]
  | ctor k => cases k <;> simp [lvl] at hn <;> simp [Fits, body, opt, upd, Pre, rank, lvl, top, short, BadO, wguard, guard, bd_cons, bd_nil, hn]
  | stopThread q => simp [top] at ht; simp [lvl] at hn; simp [Fits, body, opt, upd, Pre, rank, lvl, top, short, BadO, wguard, guard, bd_cons, bd_nil, hn, ht]
  | _ => first
    | exact absurd trivial ha
    | (simp [top] at ht; subst ht; simp [Fits, body, opt, upd, Pre, rank, lvl, top, short, BadO, wguard, guard, bd_cons, bd_nil]; done)
    | (simp [lvl] at hn; simp [Fits, body, opt, upd, Pre, rank, lvl, top, short, BadO, wguard, guard, bd_cons, bd_nil, hn]; done)

theorem fits_guard (f : Fn) (h : List Mx) (ha : ¬ BadG f) : Fits (fun f => ¬ BadG f) False True h (body f) := by
  cases f with
  | get k => cases k <;> simp_all [Fits, body, opt, upd, Pre, wguard, guard, BadG]
  | ctor k => cases k <;> simp_all [Fits, body, opt, upd, Pre, wguard, guard, BadG]
  | _ => simp_all [Fits, body, opt, upd, Pre, wguard, guard, BadG]

/-- Writes are guarded everywhere. -/
theorem fits_write (f : Fn) (h : List Mx) : Fits (fun _ => True) False False h (body f) := by
  cases f with
  | get k => cases k <;> simp [Fits, body, opt, upd, Pre, wguard, guard]
  | ctor k => cases k <;> simp [Fits, body, opt, upd, Pre, wguard, guard]
  | _ => simp [Fits, body, opt, upd, Pre, wguard, guard]

theorem ord_thread {A : Fn → Prop} {o g : Prop} (hb : ∀ f h, A f → Pre o f h → Fits A o g h (body f)) {l : List Act} (ht : thread A l) : Ord o g [] l := by
  have key : ∀ p, Fits A o g [] p → Tr A p l → Ord o g [] l := by
    intro p hp h
    have := ord_of hb h hp (k := []) rfl
    rwa [List.append_nil] at this
  have kc : ∀ f, Fits A o g [] (.call f) := fun f _ _ => ⟨fun _ => rfl, bd_nil _⟩
  rcases ht with h | ⟨q, h | h | h | h⟩
  · exact key .user (fun _ => rfl) h
  · exact key _ (kc _) h
  · exact key _ (kc _) h
  · exact key _ (kc _) h
  · exact key _ (kc _) h

/-- `held t`: the mutexes of thread `t`, the last one first. -/
structure Inv (o g : Prop) (s : St) (held : Nat → List Mx) : Prop where
  ord : ∀ t, Ord o g (held t) (s.rem t)
  mem : ∀ t m, m ∈ held t ↔ s.holder m = some t
  nd : ∀ t, (held t).Nodup

theorem inv_step {o g : Prop} {s s' : St} {held : Nat → List Mx} (i : Inv o g s held) {t : Nat} (h : Step t s s') : ∃ held', Inv o g s' held' := by
  have ho := i.ord t
  have skip : ∀ l, Ord o g (held t) l → ∃ held', Inv o g ⟨fun u => if u = t then l else s.rem u, s.holder⟩ held' := by
    intro l hl
    refine ⟨held, ?_, i.mem, i.nd⟩
    intro u
    dsimp only
    split
    · rename_i e; subst e; exact hl
    · exact i.ord u
  cases h with
  | lock hr hh =>
    rename_i m l
    rw [hr] at ho
    refine ⟨fun u => if u = t then m :: held t else held u, ?_, ?_, ?_⟩
    · intro u
      dsimp only
      split
      · exact ho.2
      · exact i.ord u
    · intro u k
      dsimp only
      split
      · rename_i e
        subst e
        rw [List.mem_cons, i.mem]
        split
        · rename_i e; simp [e]
        · rename_i e; simp [e]
      · rename_i e
        rw [i.mem]
        split
        · rename_i e'
          subst e'
          rw [hh]
          simp
          exact fun h => e h.symm
        · rfl
    · intro u
      show (if u = t then m :: held t else held u).Nodup
      split
      · refine List.nodup_cons.2 ⟨?_, i.nd t⟩
        rw [i.mem, hh]
        simp
      · exact i.nd u
  | unlock hr =>
    rename_i m l
    rw [hr] at ho
    obtain ⟨h', e1, e2⟩ := ho
    have hnd := i.nd t
    rw [e1, List.nodup_cons] at hnd
    have hm : s.holder m = some t := by rw [← i.mem, e1]; simp
    refine ⟨fun u => if u = t then h' else held u, ?_, ?_, ?_⟩
    · intro u
      dsimp only
      split
      · exact e2
      · exact i.ord u
    · intro u k
      dsimp only
      split
      · rename_i e
        subst e
        split
        · rename_i e; subst e; simp [hnd.1]
        · rename_i e
          rw [← i.mem, e1]
          simp [e]
      · rename_i e
        rw [i.mem]
        split
        · rename_i e'
          subst e'
          rw [hm]
          simp
          exact fun h => e h.symm
        · rfl
    · intro u
      show (if u = t then h' else held u).Nodup
      split
      · exact hnd.2
      · exact i.nd u
  | rd hr => rw [hr] at ho; exact skip _ ho.2
  | wr hr => rw [hr] at ho; exact skip _ ho.2
  | wait hr => rw [hr] at ho; exact skip _ ho.2

theorem inv_reach {A : Fn → Prop} {o g : Prop} (hb : ∀ f h, A f → Pre o f h → Fits A o g h (body f)) {s : St} (h : Reach A s) : ∃ held, Inv o g s held := by
  induction h with
  | start ht => exact ⟨fun _ => [], fun t => ord_thread hb (ht t), by simp, by simp⟩
  | next t _ hs ih =>
    obtain ⟨held, i⟩ := ih
    exact inv_step i hs

theorem Tr.mono {A B : Fn → Prop} (h : ∀ f, A f → B f) {p l} (ht : Tr A p l) : Tr B p l := by
  induction ht with
  | nil => exact .nil
  | rd => exact .rd
  | wr => exact .wr
  | wait => exact .wait
  | seq _ _ a b => exact .seq a b
  | stop _ a => exact .stop a
  | left _ a => exact .left a
  | right _ a => exact .right a
  | done => exact .done
  | again _ _ a b => exact .again a b
  | any n _ a => exact .any n a
  | locked _ a => exact .locked a
  | call ha _ a => exact .call (h _ ha) a
  | user0 => exact .user0
  | user hf _ _ a b => exact .user hf a b

theorem thread.mono {A B : Fn → Prop} (h : ∀ f, A f → B f) {l} (ht : thread A l) : thread B l := by
  rcases ht with h1 | ⟨q, h1 | h1 | h1 | h1⟩
  · exact .inl (h1.mono h)
  · exact .inr ⟨q, .inl (h1.mono h)⟩
  · exact .inr ⟨q, .inr (.inl (h1.mono h))⟩
  · exact .inr ⟨q, .inr (.inr (.inl (h1.mono h)))⟩
  · exact .inr ⟨q, .inr (.inr (.inr (h1.mono h)))⟩

theorem Reach.mono {A B : Fn → Prop} (h : ∀ f, A f → B f) {s} (hr : Reach A s) : Reach B s := by
  induction hr with
  | start ht => exact .start fun t => (ht t).mono h
  | next t _ hs ih => exact .next t ih hs

/-- Who waits for a mutex of a thread has only lower mutexes. -/
theorem waits_lt {g : Prop} {s : St} {held : Nat → List Mx} (i : Inv True g s held) {t u : Nat} {m : Mx} {l : List Act} (h : s.rem t = .lock m :: l) (hu : s.holder m = some u) :
    Bd (held t) (rank m) ∧ m ∈ held u := by
  have := i.ord t
  rw [h] at this
  exact ⟨this.1 trivial, (i.mem u m).2 hu⟩

/-- From a locked mutex on there is a thread that can go on. -/
theorem free_from {g : Prop} {s : St} {held : Nat → List Mx} (i : Inv True g s held) : ∀ (n : Nat) (m : Mx) (u : Nat), 12 ≤ rank m + n → s.holder m = some u →
    ∃ v, (v = u ∨ Chain s u v) ∧ (∃ k, s.holder k = some v) ∧ Free s v ∧ ∀ c l, s.rem v = .wait c :: l → short c = true := by
  intro n
  induction n with
  | zero =>
    intro m u hm
    exfalso
    revert hm
    cases m <;> (try (rename_i k; cases k)) <;> simp [rank]
  | succ n ih =>
    intro m u hm hu
    have hmu := (i.mem u m).2 hu
    by_cases hw : ∃ v, WaitsFor s u v
    · obtain ⟨v, k, l, hl, hk⟩ := hw
      obtain ⟨h1, h2⟩ := waits_lt i hl hk
      have hlt := h1 m hmu
      obtain ⟨w, hw1, hw2, hw3, hw4⟩ := ih k v (by omega) hk
      refine ⟨w, .inr ?_, hw2, hw3, hw4⟩
      rcases hw1 with rfl | hw1
      · exact .one ⟨k, l, hl, hk⟩
      · exact .more ⟨k, l, hl, hk⟩ hw1
    · refine ⟨u, .inl rfl, ⟨m, hu⟩, ⟨?_, fun v hv => hw ⟨v, hv⟩⟩, ?_⟩
      · intro he
        have := i.ord u
        rw [he] at this
        have this : held u = [] := this
        rw [this] at hmu
        cases hmu
      · intro c l hc
        have := i.ord u
        rw [hc] at this
        rcases this.1 trivial with h | h
        · exact h
        · rw [h] at hmu; cases hmu

/-- Along a chain the mutexes rise. -/
theorem chain_lt {g : Prop} {s : St} {held : Nat → List Mx} (i : Inv True g s held) {t v : Nat} (h : Chain s t v) : ∃ k, k ∈ held v ∧ Bd (held t) (rank k) := by
  induction h with
  | one h =>
    obtain ⟨m, l, hl, hm⟩ := h
    obtain ⟨h1, h2⟩ := waits_lt i hl hm
    exact ⟨m, h2, h1⟩
  | more h _ ih =>
    obtain ⟨m, l, hl, hm⟩ := h
    obtain ⟨h1, h2⟩ := waits_lt i hl hm
    obtain ⟨k, hk1, hk2⟩ := ih
    refine ⟨k, hk1, fun j hj => ?_⟩
    have a := h1 j hj
    have b := hk2 m h2
    omega

/-- Threads hold the guards of what they access. -/
theorem read_guard {o : Prop} {s : St} {held : Nat → List Mx} (i : Inv o True s held) {t : Nat} {x : Fld} {m : Mx} (hg : guard x = some m) (h : Reads s t x) : s.holder m = some t := by
  rw [← i.mem]
  have := i.ord t
  obtain ⟨l, h⟩ := h
  rw [h] at this; exact this.1 trivial m hg

theorem write_guard {o g : Prop} {s : St} {held : Nat → List Mx} (i : Inv o g s held) {t : Nat} {x : Fld} {m : Mx} (hg : wguard x = some m) (h : Writes s t x) : s.holder m = some t := by
  rw [← i.mem]
  have := i.ord t
  obtain ⟨l, h⟩ := h
  rw [h] at this; exact this.1 m hg

end Foxxll.Locks
