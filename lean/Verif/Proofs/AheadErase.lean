import Verif.Spec.Ahead

set_option linter.unusedSimpArgs false
set_option linter.unusedVariables false

/-
The schedulers without the contents of the blocks: every function does the same to the rest of the state.
-/
namespace Foxxll.Swap

variable {D : Type}

def Env.bare (E : Env D) : Env Unit := { pick := E.pick, fill := fun _ => () }

def St.bare (s : St D) : St Unit :=
  { max := s.max, remaining := s.remaining, next := s.next, free := s.free, n := s.n, blocks := s.blocks, freeIds := s.freeIds, mode := s.mode, evict := s.evict,
    mem := fun _ => (), disk := fun _ => (), held := s.held }

theorem bindEr {α α' β β' : Type} {r : α → α'} {q : β → β'} {o : Option α} {o' : Option α'} {f : α' → Option β'} {g : α → Option β} (ho : o' = o.map r)
    (h : ∀ x, f (r x) = (g x).map q) : o'.bind f = (o.bind g).map q := by
  subst ho; cases o with
  | none => rfl
  | some x => exact h x

theorem mapEr {α α' β β' : Type} {r : α → α'} {q : β → β'} {o : Option α} {o' : Option α'} {f : α' → β'} {g : α → β} (ho : o' = o.map r)
    (h : ∀ x, f (r x) = q (g x)) : o'.map f = (o.map g).map q := by
  subst ho; cases o with
  | none => rfl
  | some x => exact congrArg some (h x)

theorem iteEr {c : Prop} [Decidable c] {β β' : Type} {q : β → β'} {x' y' : Option β'} {x y : Option β} (h1 : c → x' = x.map q) (h2 : ¬ c → y' = y.map q) :
    (if c then x' else y') = (if c then x else y : Option β).map q := by
  by_cases h : c
  · rw [if_pos h, if_pos h]; exact h1 h
  · rw [if_neg h, if_neg h]; exact h2 h

/-- Pairs. -/
def bare2 {α : Type} (r : α × St D) : α × St Unit := (r.1, r.2.bare)

variable (E : Env D) (s : St D)

theorem bare_blocks : s.bare.blocks = s.blocks := rfl
theorem bare_n : s.bare.n = s.n := rfl
theorem bare_mode : s.bare.mode = s.mode := rfl
theorem bare_evict : s.bare.evict = s.evict := rfl
theorem bare_freeIds : s.bare.freeIds = s.freeIds := rfl

theorem bare_ite (c : Prop) [Decidable c] (x y : St D) : (if c then x.bare else y.bare) = (if c then x else y).bare := by split <;> rfl

theorem bare_getFreeBs : getFreeBs s.bare = ((getFreeBs s).1, (getFreeBs s).2.bare) := by
  unfold getFreeBs
  show (match s.free with
    | p :: rest => (some p, { s.bare with free := rest })
    | [] => if 0 < s.remaining then _ else (none, s.bare)) = _
  cases s.free with
  | cons p rest => rfl
  | nil =>
    simp only
    by_cases h : 0 < s.remaining
    · rw [if_pos h, if_pos h]; rfl
    · rw [if_neg h, if_neg h]

theorem bare_clean (id : Nat) : clean E.bare s.bare id = (clean E s id).map St.bare := by
  unfold clean
  refine iteEr (fun _ => ?_) (fun _ => rfl)
  simp only [bare_blocks]
  cases (s.blocks id).int <;> rfl

theorem bare_detach (id : Nat) : detach E.bare s.bare id = (detach E s id).map bare2 := by
  unfold detach
  refine iteEr (fun _ => ?_) (fun _ => rfl)
  refine bindEr (bare_clean E s id) fun s1 => ?_
  simp only [bare_blocks]
  cases (s1.blocks id).int <;> rfl

theorem bare_getFree : getFree E.bare s.bare = (getFree E s).map bare2 := by
  unfold getFree
  rw [bare_getFreeBs]
  cases h : getFreeBs s with
  | mk o s1 =>
    cases o with
    | some p => rfl
    | none =>
      simp only [bare_mode, bare_evict]
      cases popEvict s1.mode s1.evict with
      | none => rfl
      | some x => exact bare_detach E { s1 with evict := x.2 } x.1.2

theorem bare_acquire (id : Nat) (u : Bool) : acquire E.bare s.bare id u = (acquire E s id u).map bare2 := by
  unfold acquire
  refine iteEr (fun _ => rfl) (fun _ => ?_)
  simp only [bare_blocks]
  cases (s.blocks id).int with
  | some p =>
    exact congrArg (fun t => some (p, St.set t id { s.blocks id with int := some p, refs := (s.blocks id).refs + 1 }))
      (bare_ite ((s.blocks id).isAcquired = true) s { s with evict := eraseEvict s.evict id })
  | none => exact mapEr (bare_getFree E s) fun r => rfl

theorem bare_releaseWith (id : Nat) (dirty : Bool) (pr : SB → Nat) : releaseWith E.bare s.bare id dirty pr = (releaseWith E s id dirty pr).map St.bare := by
  unfold releaseWith
  refine iteEr (fun _ => rfl) (fun _ => ?_)
  refine iteEr (fun _ => ?_) (fun _ => rfl)
  refine iteEr (fun _ => rfl) (fun _ => ?_)
  refine iteEr (fun _ => rfl) (fun _ => ?_)
  exact mapEr (bare_detach E (s.set id { s.blocks id with dirty := dirty || (s.blocks id).dirty, refs := (s.blocks id).refs - 1 }) id) fun r => rfl

theorem bare_deinit (id : Nat) : deinit s.bare id = (deinit s id).map St.bare := by
  unfold deinit
  refine iteEr (fun _ => rfl) (fun _ => ?_)
  refine iteEr (fun _ => rfl) (fun _ => ?_)
  simp only [bare_blocks]
  have e := bare_ite ((s.blocks id).isEvictable = true) { s with evict := eraseEvict s.evict id } s
  cases (s.blocks id).int with
  | none => exact congrArg (fun t => some (St.set t id {})) e
  | some p => exact congrArg (fun t => some (giveBack (St.set t id {}) p)) e

theorem bare_initialize (id : Nat) (e : Option Nat) : initialize_ s.bare id e = (initialize_ s id e).map St.bare := by
  unfold initialize_
  exact iteEr (fun _ => rfl) (fun _ => iteEr (fun _ => rfl) (fun _ => rfl))

theorem bare_putOut (id : Nat) : putOut E.bare s.bare id = (putOut E s id).map St.bare := by
  unfold putOut
  have e := bare_ite ((s.blocks id).isEvictable = true) { s with evict := eraseEvict s.evict id } s
  exact iteEr (fun _ => mapEr ((congrArg (fun t => detach E.bare t id) e).trans (bare_detach E _ id)) fun r => rfl) (fun _ => congrArg some e)

theorem bare_extract (id : Nat) : extract E.bare s.bare id = (extract E s id).map bare2 := by
  unfold extract
  exact iteEr (fun _ => rfl) (fun _ => mapEr (bare_putOut E s id) fun r => rfl)

theorem bare_flushAux (k : Nat) : ∀ s : St D, flushAux E.bare k s.bare = (flushAux E k s).map St.bare := by
  induction k with
  | zero => intro s; rfl
  | succ k ih =>
    intro s
    unfold flushAux
    simp only [bare_mode, bare_evict]
    cases popEvict s.mode s.evict with
    | none => rfl
    | some x => exact bindEr (bare_detach E { s with evict := x.2 } x.1.2) fun r => ih (giveBack r.2 r.1)

theorem bare_alloc : alloc s.bare = bare2 (alloc s) := by
  unfold alloc
  simp only [bare_freeIds]
  cases s.freeIds <;> rfl

theorem bare_write (id : Nat) (d : D) : write s.bare id () = (write s id d).map St.bare := by
  unfold write
  exact iteEr (fun _ => rfl) (fun _ => iteEr (fun _ => mapEr (r := fun x => x) (by rw [bare_blocks]; simp) fun p => rfl) (fun _ => rfl))

def Op.bare : Op D → Op Unit
  | .acquire i u => .acquire i u
  | .write i _ => .write i ()
  | .release i d p => .release i d p
  | .deinit i => .deinit i
  | .init i e => .init i e
  | .extract i => .extract i
  | .flush => .flush
  | .alloc => .alloc
  | .free i => .free i
  | .client _ => .client ()
  | .retag m l => .retag m l

def Res.bare : Res D → Res Unit
  | .unit => .unit
  | .data _ => .data ()
  | .ext e => .ext e
  | .id n => .id n

def Abs.bare (a : Abs D) : Abs Unit :=
  { data := fun i => (a.data i).map fun _ => (), refs := a.refs, work := fun i => (a.work i).map fun _ => (), changed := a.changed, held := fun e => (a.held e).map fun _ => () }

def bareR (r : Res D × St D) : Res Unit × St Unit := (r.1.bare, r.2.bare)

theorem bare_step (op : Op D) : step E.bare s.bare op.bare = (step E s op).map bareR := by
  cases op with
  | acquire i u => exact mapEr (bare_acquire E s i u) fun r => rfl
  | write i d => exact mapEr (bare_write s i d) fun r => rfl
  | release i d p => exact mapEr (bare_releaseWith E s i d p) fun r => rfl
  | deinit i => exact mapEr (bare_deinit s i) fun r => rfl
  | init i e => exact mapEr (bare_initialize s i e) fun r => rfl
  | extract i => exact mapEr (bare_extract E s i) fun r => rfl
  | flush => exact mapEr (bare_flushAux E s.evict.length s) fun r => rfl
  | alloc => show some _ = _; rw [bare_alloc]; rfl
  | free i => exact mapEr (mapEr (bare_deinit s i) fun r => rfl) fun r => rfl
  | client d => rfl
  | retag m l => exact iteEr (fun _ => rfl) (fun _ => rfl)

theorem map_none_iff {α : Type} {o : Option α} : (o.map fun _ => ()) = none ↔ o = none := by cases o <;> simp

theorem bare_allowed {a : Abs D} {op : Op D} (h : Allowed a op) : Allowed a.bare op.bare := by
  cases op with
  | init i e => exact ⟨h.1, map_none_iff.2 h.2.1, fun x hx hc => h.2.2 x hx (map_none_iff.1 hc)⟩
  | _ => exact h

theorem map_upd (f : Nat → Option D) (i : Nat) (x : Option D) : (fun j => (upd f i x j).map fun _ => ()) = upd (fun j => (f j).map fun _ => ()) i (x.map fun _ => ()) := by
  funext j; unfold upd; split <;> rfl

theorem bare_next (a : Abs D) (op : Op D) (r : Res D) : (a.next op r).bare = a.bare.next op.bare r.bare := by
  cases op with
  | acquire i u =>
    cases r with
    | data d =>
      show Abs.bare (if 0 < a.refs i then _ else _) = if 0 < a.refs i then _ else _
      split
      · rfl
      · simp only [Abs.bare, map_upd]; rfl
    | _ => rfl
  | write i d => simp only [Abs.next, Abs.bare, Op.bare, map_upd]; rfl
  | release i d p =>
    cases d with
    | true => simp only [Abs.next, Abs.bare, Op.bare, if_true, map_upd]
    | false => rfl
  | deinit i => simp only [Abs.next, Abs.bare, Op.bare, map_upd]; rfl
  | free i => simp only [Abs.next, Abs.bare, Op.bare, map_upd]; rfl
  | init i e =>
    cases e with
    | none => rfl
    | some e => simp only [Abs.next, Abs.bare, Op.bare, map_upd]; rfl
  | extract i =>
    cases r with
    | ext e =>
      cases e with
      | none => rfl
      | some e => simp only [Abs.next, Abs.bare, Op.bare, Res.bare, map_upd]; rfl
    | _ => rfl
  | client d =>
    cases r with
    | ext e =>
      cases e with
      | none => rfl
      | some e => simp only [Abs.next, Abs.bare, Op.bare, Res.bare, map_upd]; rfl
    | _ => rfl
  | _ => cases r <;> rfl

end Foxxll.Swap

namespace Foxxll.Ahead
open Foxxll.Swap (SB Env POp Elem Op Res Abs Allowed bindEr mapEr iteEr bare2)

variable {D : Type}

def St.bare (s : St D) : St Unit :=
  { b := s.b.bare, freeEv := s.freeEv, schedEv := s.schedEv, sched := s.sched, wsched := s.wsched, pred := s.pred, next := s.next, reads := s.reads, reqs := s.reqs, orc := s.orc }

def bareP {α : Type} (r : α × St D) : α × St Unit := (r.1, r.2.bare)

variable (E : Env D)

theorem bare_blk (s : St D) : s.bare.blk = s.blk := rfl
theorem bare_sched (s : St D) : s.bare.sched = s.sched := rfl
theorem bare_wsched (s : St D) : s.bare.wsched = s.wsched := rfl
theorem bare_reads (s : St D) : s.bare.reads = s.reads := rfl
theorem bare_pred (s : St D) : s.bare.pred = s.pred := rfl
theorem bare_next (s : St D) : s.bare.next = s.next := rfl
theorem bare_freeEv (s : St D) : s.bare.freeEv = s.freeEv := rfl
theorem bare_schedEv (s : St D) : s.bare.schedEv = s.schedEv := rfl
theorem bare_b (s : St D) : s.bare.b = s.b.bare := rfl

theorem bare_startRead (s : St D) (c t : Nat) : startRead s.bare c t = (startRead s c t).map St.bare := by
  unfold startRead
  simp only [bare_blk, bare_sched]
  cases (s.blk c).int <;> cases (s.blk c).ext <;> cases s.sched t <;> rfl

theorem bare_doRead (s : St D) (r : Nat) : doRead s.bare r = (doRead s r).bare := by
  unfold doRead
  simp only [bare_reads]
  cases s.reads.find? (fun x => x.id == r) <;> rfl

theorem bare_doHandle (s : St D) (g : Nat) (w : Wrr) : doHandle s.bare g w = (doHandle s g w).map St.bare := by
  unfold doHandle
  refine iteEr (fun _ => ?_) (fun _ => rfl)
  cases w.taker with
  | none => rfl
  | some t => exact bare_startRead (s.setWrr g (some { w with phase := .handled, taker := some t })) w.target t

theorem bare_diskStep (s : St D) (x : Disk) : diskStep s.bare x = (diskStep s x).map St.bare := by
  cases x with
  | write g =>
    simp only [diskStep, bare_wsched]
    cases s.wsched g with
    | none => rfl
    | some w => exact iteEr (fun _ => rfl) (fun _ => rfl)
  | flag g =>
    simp only [diskStep, bare_wsched]
    cases s.wsched g with
    | none => rfl
    | some w => exact iteEr (fun _ => rfl) (fun _ => rfl)
  | handle g =>
    simp only [diskStep, bare_wsched]
    cases s.wsched g with
    | none => rfl
    | some w => exact iteEr (fun _ => bare_doHandle s g w) (fun _ => rfl)
  | read r => exact congrArg some (bare_doRead s r)

theorem bare_diskSteps (l : List Disk) : ∀ s : St D, diskSteps s.bare l = (diskSteps s l).map St.bare := by
  induction l with
  | nil => intro s; rfl
  | cons x l ih => intro s; exact bindEr (bare_diskStep s x) fun s1 => ih s1

theorem bare_sync (s : St D) : sync s.bare = (sync s).map St.bare := bare_diskSteps (s.orc.headD []) { s with orc := s.orc.tail }

theorem bare_scheduleWrite (s : St D) (g : Nat) : scheduleWrite E.bare s.bare g = (scheduleWrite E s g).map bareP := by
  unfold scheduleWrite
  refine iteEr (fun _ => ?_) (fun _ => rfl)
  simp only [bare_blk, bare_wsched]
  cases (s.blk g).int with
  | none => rfl
  | some p =>
    simp only
    cases s.wsched g with
    | some w => rfl
    | none => exact mapEr (bare_sync ((s.setBlk g { s.blk g with int := some p, ext := some ((s.blk g).ext.getD (E.pick s.b.live)), dirty := false }).setWrr g (some { buf := p, ext := (s.blk g).ext.getD (E.pick s.b.live) }))) fun r => rfl

theorem bare_waitWrite (s : St D) (g : Nat) : waitWrite s.bare g = (waitWrite s g).map St.bare := by
  unfold waitWrite
  simp only [bare_wsched]
  cases s.wsched g with
  | none => rfl
  | some w => exact bindEr (bare_sync s) fun s1 => mapEr (bare_diskSteps _ s1) fun s2 => rfl

theorem mapS {α β : Type} {q : α → β} {m : Option Meta} {f : Meta → β} {g : Meta → α} (h : ∀ x, f x = q (g x)) : m.map f = (m.map g).map q := by
  cases m with
  | none => rfl
  | some x => exact congrArg some (h x)

theorem bare_waitGiver (s : St D) (c : Nat) : waitGiver s.bare c = (waitGiver s c).map St.bare := by
  unfold waitGiver
  simp only [bare_sched]
  cases s.sched c with
  | none => rfl
  | some m =>
    simp only
    cases m.giver with
    | none => rfl
    | some g => exact bindEr (bare_waitWrite s g) fun s1 => mapS fun m1 => rfl

theorem bare_waitRead (s : St D) (c : Nat) : waitRead s.bare c = (waitRead s c).map St.bare := by
  unfold waitRead
  refine bindEr (bare_waitGiver s c) fun s1 => ?_
  simp only [bare_sched]
  cases s1.sched c with
  | none => rfl
  | some m =>
    simp only
    cases m.readReq with
    | none => rfl
    | some r =>
      refine bindEr (bare_sync s1) fun s2 => ?_
      rw [bare_doRead]
      exact mapS fun m1 => rfl

theorem bare_fixGiver (s : St D) (c : Nat) : fixGiver s.bare c = (fixGiver s c).map St.bare := by
  unfold fixGiver
  simp only [bare_sched, bare_wsched]
  cases s.sched c with
  | none => rfl
  | some m =>
    simp only
    cases m.giver with
    | none => rfl
    | some g =>
      simp only
      cases s.wsched g <;> rfl

theorem bare_setMeta (s : St D) (c : Nat) (m : Option Meta) : s.bare.setMeta c m = (s.setMeta c m).bare := rfl
theorem bare_setWrr (s : St D) (c : Nat) (m : Option Wrr) : s.bare.setWrr c m = (s.setWrr c m).bare := rfl
theorem bare_setBlk (s : St D) (c : Nat) (m : SB) : s.bare.setBlk c m = (s.setBlk c m).bare := rfl

theorem bare_swapGivers (s : St D) (c o : Nat) : swapGivers s.bare c o = (swapGivers s c o).map St.bare := by
  unfold swapGivers
  simp only [bare_sched, bare_setMeta]
  cases s.sched c with
  | none => rfl
  | some mc =>
    cases s.sched o with
    | none => rfl
    | some mo =>
      simp only
      cases (s.setMeta o (some ({ mo with giver := mc.giver } : Meta))).sched c with
      | none => rfl
      | some mc1 => exact bindEr (bare_fixGiver _ o) fun s2 => bare_fixGiver s2 c

theorem bare_detach (s : St D) (c : Nat) : detach E.bare s.bare c = (detach E s c).map bareP := mapEr (Swap.bare_detach E s.b c) fun r => rfl

theorem bare_attach (s : St D) (c : Nat) (p : Option Nat) : attach s.bare c p = (attach s c p).map St.bare := iteEr (fun _ => rfl) (fun _ => rfl)

theorem bare_readOwn (s : St D) (c : Nat) : readOwn s.bare c = (readOwn s c).map St.bare := by
  unfold readOwn
  simp only [bare_sched, bare_wsched, bare_setMeta, bare_setWrr]
  cases s.sched c with
  | none => rfl
  | some m =>
    simp only
    cases m.giver with
    | none => exact bare_startRead s c c
    | some g =>
      simp only
      cases s.wsched g with
      | none => exact bare_startRead (s.setMeta c (some { m with giver := none })) c c
      | some w =>
        refine bindEr (bare_sync _) fun s1 => ?_
        simp only [bare_wsched]
        cases s1.wsched g with
        | none => rfl
        | some w1 =>
          refine iteEr (fun _ => ?_) (fun _ => rfl)
          refine bindEr (bare_waitWrite s1 g) fun s2 => ?_
          simp only [bare_sched, bare_setMeta]
          cases s2.sched c with
          | none => rfl
          | some m2 => exact iteEr (fun _ => rfl) (fun _ => bare_startRead _ c c)

theorem bare_swapInternal (s : St D) (c o : Nat) : swapInternal E.bare s.bare c o = (swapInternal E s c o).map St.bare :=
  bindEr (bare_detach E s c) fun r => bindEr (bare_detach E r.2 o) fun q => bindEr (bare_attach q.2 c (some q.1)) fun s1 => bare_attach s1 o (some r.1)

theorem bare_swapReserved (s : St D) (c o : Nat) : swapReserved E.bare s.bare c o = (swapReserved E s c o).map St.bare := by
  refine bindEr (bare_detach E s c) fun r => ?_
  show (match r.2.sched o with
    | none => none
    | some (mo : Meta) => (attach r.2.bare c mo.reserved).bind fun s1 => (s1.sched o).map fun (mo1 : Meta) => s1.setMeta o (some { mo1 with reserved := some r.1 })) = _
  cases r.2.sched o with
  | none => rfl
  | some mo => exact bindEr (bare_attach r.2 c mo.reserved) fun s1 => mapS fun m => rfl

theorem bare_scheduleRead (fuel : Nat) : ∀ (s : St D) (c : Nat), scheduleRead E.bare fuel s.bare c = (scheduleRead E fuel s c).map St.bare := by
  induction fuel with
  | zero => intro s c; rfl
  | succ fuel ih =>
    intro s c
    have hx : ∀ (s : St D) (o : Nat), ((swapGivers s.bare c o).bind fun s3 => (swapInternal E.bare s3 c o).bind fun s4 => scheduleRead E.bare fuel s4 o) =
        ((swapGivers s c o).bind fun s3 => (swapInternal E s3 c o).bind fun s4 => scheduleRead E fuel s4 o).map St.bare :=
      fun s o => bindEr (bare_swapGivers s c o) fun s3 => bindEr (bare_swapInternal E s3 c o) fun s4 => ih s4 o
    unfold scheduleRead
    simp only [bare_wsched, bare_setWrr]
    cases s.wsched c with
    | none => exact bare_readOwn s c
    | some w =>
      simp only
      cases w.taker with
      | none => rfl
      | some o =>
        refine iteEr (fun _ => ?_) (fun _ => bindEr (bare_swapGivers s c o) fun s3 => bare_swapReserved E s3 c o)
        refine bindEr (bare_sync _) fun s1 => ?_
        simp only [bare_wsched]
        cases s1.wsched c with
        | none => rfl
        | some w1 =>
          refine iteEr (fun _ => ?_) (fun _ => hx s1 o)
          refine bindEr (bare_waitWrite s1 c) fun s2 => ?_
          simp only [bare_sched]
          cases s2.sched o with
          | none => rfl
          | some mo => exact iteEr (fun _ => bare_readOwn s2 c) (fun _ => hx s2 o)

theorem bare_opDone (s : St D) (c : Nat) : opDone s.bare c = (opDone s c).map St.bare := by
  unfold opDone
  simp only [bare_sched]
  cases s.sched c with
  | none => rfl
  | some m =>
    simp only
    cases m.ops with
    | nil => rfl
    | cons o l =>
      cases l with
      | nil => exact iteEr (fun _ => rfl) (fun _ => rfl)
      | cons _ _ => rfl

theorem bare_listOp (s : St D) (x : Elem) : listOp s.bare x = (listOp s x).bare := by
  unfold listOp
  simp only [bare_sched]
  cases s.sched x.id <;> rfl

theorem bare_iteS (c : Prop) [Decidable c] (x y : St D) : (if c then x.bare else y.bare) = (if c then x else y).bare := by split <;> rfl

theorem bare_unlistOp (s : St D) (x : Elem) : unlistOp s.bare x = (unlistOp s x).bare := by
  unfold unlistOp
  simp only [bare_sched]
  cases s.sched x.id with
  | none => rfl
  | some m => exact bare_iteS (m.ops.length ≤ 1) (s.setMeta x.id none) (s.setMeta x.id (some { m with ops := m.ops.dropLast }))

theorem mapW {α β : Type} {q : α → β} {m : Option Wrr} {f : Wrr → β} {g : Wrr → α} (h : ∀ x, f x = q (g x)) : m.map f = (m.map g).map q := by
  cases m with
  | none => rfl
  | some x => exact congrArg some (h x)

theorem bare_reserve (s : St D) (c : Nat) : reserve E.bare s.bare c = (reserve E s c).map bareP := by
  unfold reserve
  rw [bare_b, Swap.bare_getFreeBs]
  cases Swap.getFreeBs s.b with
  | mk o b1 =>
    cases o with
    | some p => exact mapS fun m => rfl
    | none =>
      simp only [bare_freeEv, bare_sched]
      cases firstId s.freeEv with
      | none => rfl
      | some g =>
        refine iteEr (fun _ => rfl) (fun _ => ?_)
        refine bindEr (bare_scheduleWrite E { s with freeEv := eraseId s.freeEv g } g) fun r => ?_
        refine bindEr (bare_detach E r.2 g) fun q => ?_
        show (q.2.sched c).bind _ = _
        cases q.2.sched c with
        | none => rfl
        | some m =>
          exact iteEr (fun _ => mapW fun w => rfl) (fun _ => rfl)

theorem bare_prefetch (s : St D) (c : Nat) : prefetch E.bare s.bare c = (prefetch E s c).map St.bare := by
  unfold prefetch
  simp only [bare_sched]
  cases s.sched c with
  | none => rfl
  | some m => exact bindEr (bare_attach s c m.reserved) fun s1 => bare_scheduleRead E _ { s1.setMeta c (some { m with reserved := none }) with schedEv := insertId s.schedEv c } c

theorem bare_iteP (c : Prop) [Decidable c] (x y : Bool × St D) : (if c then bareP x else bareP y) = bareP (if c then x else y) := by split <;> rfl

theorem bare_scheduleAcquire (s : St D) (c : Nat) : scheduleAcquire E.bare s.bare c = (scheduleAcquire E s c).map bareP := by
  unfold scheduleAcquire
  refine iteEr (fun _ => ?_) (fun _ => ?_)
  · exact congrArg (fun t => some (true, t)) (bare_iteS (c ∈ s.freeEv) { s with freeEv := eraseId s.freeEv c, schedEv := insertId s.schedEv c } s)
  · simp only [bare_sched]
    cases s.sched c with
    | none => rfl
    | some m =>
      refine iteEr (fun _ => rfl) (fun _ => ?_)
      refine bindEr (bare_reserve E s c) fun r => ?_
      refine iteEr (fun _ => ?_) (fun _ => rfl)
      show (match r.2.sched c with
        | none => none
        | some m1 => if shallRead r.2 c m1.ops then (prefetch E.bare r.2.bare c).map fun s1 => (true, s1) else some (true, r.2.bare)) = _
      cases r.2.sched c with
      | none => rfl
      | some m1 => exact iteEr (fun _ => mapEr (bare_prefetch E r.2 c) fun s1 => rfl) (fun _ => rfl)

theorem bare_scheduleOne (s : St D) (x : Elem) : scheduleOne E.bare s.bare x = (scheduleOne E s x).map bareP := by
  unfold scheduleOne
  refine iteEr (fun _ => rfl) (fun _ => ?_)
  have hx : ((scheduleAcquire E.bare (listOp s.bare x) x.id).map fun r => if r.1 then r else (false, unlistOp r.2 x)) =
      ((scheduleAcquire E (listOp s x) x.id).map fun r => if r.1 then r else (false, unlistOp r.2 x)).map bareP := by
    rw [bare_listOp]
    refine mapEr (bare_scheduleAcquire E _ x.id) fun r => ?_
    show (if r.1 = true then bareP r else (false, unlistOp r.2.bare x)) = _
    rw [bare_unlistOp]
    exact bare_iteP (r.1 = true) r (false, unlistOp r.2 x)
  cases x.op with
  | acquire => exact hx
  | acquireUninit => exact hx
  | deinit =>
    simp only [bare_listOp]
    exact congrArg (fun t => some (true, t)) (bare_iteS (((listOp s x).blk x.id).dirty = true ∧ x.id ∈ (listOp s x).freeEv)
      { listOp s x with freeEv := eraseId (listOp s x).freeEv x.id, schedEv := insertId (listOp s x).schedEv x.id } (listOp s x))
  | _ => simp only [bare_listOp]; rfl

theorem bare_writeAll (l : List Nat) : ∀ s : St D, writeAll E.bare l s.bare = (writeAll E l s).map St.bare := by
  induction l with
  | nil => intro s; rfl
  | cons g l ih => intro s; exact iteEr (fun _ => ih s) (fun _ => bindEr (bare_scheduleWrite E s g) fun r => ih r.2)

theorem bare_scheduleLoop (l : List Elem) : ∀ s : St D, scheduleLoop E.bare l s.bare = (scheduleLoop E l s).map St.bare := by
  induction l with
  | nil => intro s; exact bare_writeAll E _ { s with next := [] }
  | cons x l ih =>
    intro s
    exact bindEr (bare_scheduleOne E { s with next := x :: l } x) fun r => iteEr (fun _ => ih { r.2 with next := l }) (fun _ => rfl)

theorem bare_scheduleNext (s : St D) : scheduleNext E.bare s.bare = (scheduleNext E s).map St.bare := bare_scheduleLoop E s.next s

theorem bare_start (b : Swap.St D) (seq : List Elem) (orc : List (List Disk)) : start E.bare b.bare seq orc = (start E b seq orc).map St.bare :=
  bare_scheduleNext E { b := { b with evict := [] }, freeEv := b.evict.map (·.2), pred := seq, next := seq, orc := orc }

theorem bare_begin (s : St D) (op : POp) (c : Nat) : begin_ s.bare op c = (begin_ s op c).map St.bare := by
  unfold begin_
  simp only [bare_pred]
  cases s.pred with
  | nil => rfl
  | cons x l => exact iteEr (fun _ => bare_sync { s with pred := l }) (fun _ => rfl)

theorem bare_acquire (s : St D) (c : Nat) (u : Bool) : acquire E.bare s.bare c u = (acquire E s c u).map bareP := by
  unfold acquire
  refine bindEr (bare_begin s _ c) fun s0 => ?_
  refine bindEr (r := St.bare) ?_ fun s4 => ?_
  · refine iteEr (fun _ => iteEr (fun _ => rfl) (fun _ => iteEr (fun _ => bare_waitRead { s0 with schedEv := eraseId s0.schedEv c } c) (fun _ => rfl))) (fun _ => iteEr (fun _ => rfl) (fun _ => ?_))
    refine bindEr (bare_waitGiver s0 c) fun s1 => ?_
    simp only [bare_sched]
    cases s1.sched c with
    | none => rfl
    | some m =>
      simp only
      cases m.reserved with
      | none => rfl
      | some p =>
        simp only
        refine congrArg some ?_
        split <;> rfl
  · simp only [bare_blk]
    cases (s4.blk c).int with
    | none => rfl
    | some p => exact mapEr (bare_opDone (s4.setBlk c { s4.blk c with int := some p, refs := (s4.blk c).refs + 1 }) c) fun s5 => rfl

theorem bare_releaseData (s : St D) (c : Nat) (ops : List POp) : releaseData E.bare s.bare c ops = (releaseData E s c ops).map St.bare := by
  unfold releaseData
  refine iteEr (fun _ => iteEr (fun _ => ?_) (fun _ => rfl)) (fun _ => iteEr (fun _ => ?_) (fun _ => iteEr (fun _ => rfl) (fun _ => ?_)))
  · exact mapEr (bare_scheduleWrite E { s with schedEv := insertId s.schedEv c } c) fun r => rfl
  · exact bare_scheduleNext E { s with freeEv := insertId s.freeEv c }
  · exact mapEr (bare_scheduleWrite E { s with freeEv := insertId s.freeEv c } c) fun r => rfl

theorem bare_releaseNoData (s : St D) (c : Nat) (ops : List POp) : releaseNoData E.bare s.bare c ops = (releaseNoData E s c ops).map St.bare := by
  unfold releaseNoData
  refine bindEr (bare_detach E s c) fun r => ?_
  refine iteEr (fun _ => mapS fun m => rfl) (fun _ => iteEr (fun _ => ?_) (fun _ => rfl))
  exact bare_scheduleNext E { r.2 with b := Swap.giveBack r.2.b r.1 }

theorem bare_release (s : St D) (c : Nat) (dirty : Bool) : release E.bare s.bare c dirty = (release E s c dirty).map St.bare := by
  unfold release
  refine bindEr (bare_begin s _ c) fun s0 => ?_
  simp only [bare_sched]
  cases s0.sched c with
  | none => rfl
  | some m =>
    refine iteEr (fun _ => ?_) (fun _ => rfl)
    refine bindEr (r := St.bare) ?_ fun s2 => bare_opDone s2 c
    exact iteEr (fun _ => rfl) (fun _ => iteEr (fun _ => bare_releaseData E (s0.setBlk c { s0.blk c with dirty := dirty || (s0.blk c).dirty, refs := (s0.blk c).refs - 1 }) c m.ops.tail) (fun _ => bare_releaseNoData E (s0.setBlk c { s0.blk c with dirty := dirty || (s0.blk c).dirty, refs := (s0.blk c).refs - 1 }) c m.ops.tail))

theorem bare_unlistBlock (s : St D) (c : Nat) (ops : List POp) : unlistBlock s.bare c ops = (unlistBlock s c ops).map St.bare := by
  unfold unlistBlock
  exact iteEr (fun _ => iteEr (fun _ => iteEr (fun _ => rfl) (fun _ => iteEr (fun _ => rfl) (fun _ => rfl))) (fun _ => iteEr (fun _ => rfl) (fun _ => rfl))) (fun _ => rfl)

theorem bare_deinit (s : St D) (c : Nat) : deinit E.bare s.bare c = (deinit E s c).map St.bare := by
  unfold deinit
  refine bindEr (bare_begin s _ c) fun s0 => ?_
  simp only [bare_sched]
  cases s0.sched c with
  | none => rfl
  | some m =>
    refine bindEr (bare_unlistBlock s0 c m.ops) fun s1 => ?_
    refine iteEr (fun _ => rfl) (fun _ => ?_)
    refine bindEr (r := St.bare) ?_ fun s4 => bare_opDone s4 c
    simp only [bare_blk]
    cases (s1.blk c).int with
    | none => rfl
    | some p =>
      refine iteEr (fun _ => rfl) (fun _ => iteEr (fun _ => ?_) (fun _ => rfl))
      exact bare_scheduleNext E { s1.setBlk c {} with b := Swap.giveBack (s1.setBlk c {}).b p }

theorem bare_initialize (s : St D) (c : Nat) (e : Option Nat) : initialize_ E.bare s.bare c e = (initialize_ E s c e).map St.bare := by
  unfold initialize_
  refine bindEr (bare_begin s _ c) fun s0 => ?_
  simp only [bare_sched]
  cases s0.sched c with
  | none => rfl
  | some m =>
    refine iteEr (fun _ => rfl) (fun _ => ?_)
    refine bindEr (r := St.bare) ?_ fun s2 => bare_opDone s2 c
    exact iteEr (fun _ => bare_prefetch E { s0 with b := { (s0.b.set c { s0.blk c with ext := e }) with held := s0.b.held.filter (fun x => some x != e) } } c) (fun _ => rfl)

theorem bare_extract (s : St D) (c : Nat) : extract s.bare c = (extract s c).map bareP :=
  bindEr (bare_begin s _ c) fun s0 => bindEr (bare_waitWrite s0 c) fun s1 => bindEr (bare_opDone s1 c) fun s2 => iteEr (fun _ => rfl) (fun _ => rfl)

theorem bare_alloc (s : St D) : alloc s.bare = (alloc s).map bareP := by
  refine bindEr (bare_sync s) fun s0 => iteEr (fun _ => rfl) (fun _ => ?_)
  rw [bare_b, Swap.bare_alloc]; rfl

theorem bare_freeBlock (s : St D) (c : Nat) : freeBlock E.bare s.bare c = (freeBlock E s c).map St.bare := mapEr (bare_deinit E s c) fun r => rfl

theorem bare_stopBlocks (l : List Nat) : ∀ s : St D, stopBlocks l s.bare = (stopBlocks l s).map St.bare := by
  induction l with
  | nil => intro s; rfl
  | cons c l ih =>
    intro s
    unfold stopBlocks
    simp only [bare_sched]
    cases s.sched c with
    | none => exact ih s
    | some _ =>
      refine bindEr (bare_waitRead s c) fun s1 => ?_
      simp only [bare_sched]
      cases s1.sched c with
      | none => rfl
      | some m =>
        simp only
        cases m.reserved with
        | none => exact ih (s1.setMeta c none)
        | some p => exact ih (St.setMeta { s1 with b := Swap.giveBack s1.b p } c none)

theorem bare_stopWrites (l : List Nat) : ∀ s : St D, stopWrites l s.bare = (stopWrites l s).map St.bare := by
  induction l with
  | nil => intro s; rfl
  | cons g l ih => intro s; exact bindEr (bare_waitWrite s g) fun s1 => ih s1

theorem bare_stop (s : St D) : stop s.bare = (stop s).map St.bare :=
  bindEr (bare_stopBlocks (List.range s.b.n) { s with freeEv := s.freeEv ++ s.schedEv.filter (fun i => decide (i ∉ s.freeEv)), schedEv := [] }) fun s1 => bare_stopWrites _ s1

theorem bare_toOnline (s : St D) : toOnline s.bare = (toOnline s).map Swap.St.bare := mapEr (bare_stop s) fun s1 => rfl

theorem bare_detachAll (l : List Nat) : ∀ s : St D, detachAll E.bare l s.bare = (detachAll E l s).map St.bare := by
  induction l with
  | nil => intro s; rfl
  | cons g l ih => intro s; exact bindEr (bare_detach E s g) fun r => ih { r.2 with b := Swap.giveBack r.2.b r.1, freeEv := eraseId r.2.freeEv g }

theorem bare_flush (s : St D) : flush E.bare s.bare = (flush E s).map St.bare := bindEr (bare_stop s) fun s1 => bare_detachAll E _ s1

def bareR (r : Res D × St D) : Res Unit × St Unit := (r.1.bare, r.2.bare)

theorem bare_step (s : St D) (op : Op D) : step E.bare s.bare op.bare = (step E s op).map bareR := by
  cases op with
  | acquire i u => exact mapEr (bare_acquire E s i u) fun r => rfl
  | write i d => exact mapEr (Swap.bare_write s.b i d) fun r => rfl
  | release i d p => exact mapEr (bare_release E s i d) fun r => rfl
  | deinit i => exact mapEr (bare_deinit E s i) fun r => rfl
  | init i e => exact mapEr (bare_initialize E s i e) fun r => rfl
  | extract i => exact mapEr (bare_extract s i) fun r => rfl
  | flush => exact mapEr (bare_flush E s) fun r => rfl
  | alloc => exact mapEr (bare_alloc s) fun r => rfl
  | free i => exact mapEr (bare_freeBlock E s i) fun r => rfl
  | client d => rfl
  | retag m l => rfl

def Stage.bare : Stage D → Stage Unit
  | .online b => .online b.bare
  | .ahead f s => .ahead f s.bare

theorem bare_isFlush (op : Op D) : isFlush op.bare = isFlush op := by cases op <;> rfl

/-- A history without the contents is a history. -/
theorem bare_life {Q : Nat → List Elem → Prop} {g : Stage D} {a : Abs D} (h : Life E Q g a) : Life E.bare Q g.bare a.bare := by
  induction h with
  | new memory size mem disk => exact .new memory size (fun _ => ()) (fun _ => ())
  | @online b a b' r op _ ha hs ih =>
    rw [Swap.bare_next]
    exact .online op.bare ih (Swap.bare_allowed ha) (by rw [Swap.bare_step, hs]; rfl)
  | start seq orc _ hq hs ih => exact .start seq orc ih hq (by rw [bare_start, hs]; rfl)
  | @step f s a s' r op _ ha hs ih =>
    rw [Swap.bare_next]
    show Life E.bare Q (.ahead (f || isFlush op) s'.bare) _
    rw [← bare_isFlush]
    exact .step op.bare ih (Swap.bare_allowed ha) (by rw [bare_step, hs]; rfl)
  | stop _ hs ih => exact .stop ih (by rw [bare_toOnline, hs]; rfl)

end Foxxll.Ahead
