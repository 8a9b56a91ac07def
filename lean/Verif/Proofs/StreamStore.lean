import Verif.Proofs.StreamStoreIn
import Verif.Props.Streams
/-
Lemmas for the streams on top of the store, and runs for the examples.
-/
set_option linter.unusedSimpArgs false

namespace Foxxll.Stream

variable {α : Type}

/-- When the destructor of the output stream has returned, the blocks written have been transferred. -/
theorem closed_transferred {c : OCfg} (hs : 0 < c.size) {s : OSt α} (hr : OReach c s) {xs : List α}
    (hcalls : s.calls = putCalls xs ++ [.close]) (hcl : s.closed = true) (hpc : s.w.pc = .idle) :
    s.w.busy = [] ∧ ∃ k, k ≤ c.bids.length ∧ xs.length = k * c.size ∧
      ∀ i b, i < k → c.bids[i]? = some b → (b, chunk c.size xs i) ∈ s.w.transferred := by
  have hi := oreach_inv hs hr
  have hsync := (oreach_sync hs hr).clo xs hcalls
  obtain ⟨he, _, _⟩ := hi.cl hcl
  obtain ⟨hb, hba⟩ := hi.fin hcl hpc
  have hlog := (BufWriter.reach_inv (wbs_pos c) BufWriter.legal1_legal hi.reach).log
  have hperm : s.w.written.Perm s.w.transferred := by
    simpa [BufWriter.pending, BufWriter.batched, BufWriter.curW, hb, hba, hpc] using hlog
  have hout := hi.out
  rw [hsync, he, List.take_zero, List.append_nil] at hout
  obtain ⟨h1, h2⟩ := chunk_flatten (s.w.written.map (·.2)) (by
    intro b hb
    obtain ⟨w, hw, rfl⟩ := List.mem_map.1 hb
    exact hi.wl w hw) hout.symm
  have hlen : s.w.written.length = s.nbid := by
    have := congrArg List.length hi.bids
    simpa [Nat.min_eq_left hi.nb] using this
  rw [List.length_map, hlen] at h1
  refine ⟨hb, s.nbid, hi.nb, h1, ?_⟩
  intro i b hik hb
  have hlt : i < s.w.written.length := by omega
  obtain ⟨w, hw⟩ : ∃ w, s.w.written[i]? = some w := ⟨_, List.getElem?_eq_getElem hlt⟩
  have hw1 : w.1 = b := by
    have := congrArg (fun l => l[i]?) hi.bids
    simp only [List.getElem?_map, hw, Option.map_some, List.getElem?_take, hik, if_true, hb, Option.some.injEq] at this
    exact this
  have hw2 := h2 i w.2 (by rw [List.getElem?_map, hw]; rfl)
  rw [← hw2, ← hw1]
  exact hperm.mem_iff.1 (List.mem_of_getElem? hw)

/-- At the end of the stream all blocks have been handed out. -/
theorem ireach_end {rev : Bool} {size : Nat} {c : Prefetch.Cfg (List α)} {s : ISt α} (hr : IReach rev size c false s) :
    s.notFinished = false → c.seqLength ≤ s.p.nextconsume := by
  induction hr with
  | @start s blk h =>
    unfold iInit at h
    split at h
    · split at h
      · injection h with h; subst h; intro h; cases h
      all_goals cases h
    all_goals cases h
  | @next s s' op hr hsp hs ih =>
    have key : ∀ {r p : Prefetch.St (List α)} {b : Nat}, Prefetch.refill c r b = .ok p → p.nextconsume = r.nextconsume := by
      intro r p b h
      unfold Prefetch.refill at h
      dsimp only at h
      repeat' split at h
      all_goals first
        | (cases h; done)
        | skip
      all_goals
        injection h with h
        subst h
        rfl
    cases op with
    | advance =>
      simp only [iStep] at hs
      repeat' split at hs
      all_goals first
        | (cases hs; done)
        | skip
      all_goals
        injection hs with hs
        subst hs
        exact ih
    | spurious => exact absurd (hsp rfl) (by simp)
    | wake =>
      simp only [iStep] at hs
      split at hs
      · unfold lift at hs
        split at hs
        · injection hs with hs; subst hs; intro h; cases h
        all_goals cases hs
      · cases hs
    | consume =>
      simp only [iStep] at hs
      split at hs
      · unfold lift at hs
        split at hs
        · rename_i p hp
          injection hs with hs
          have hcase : (p.waiting.isSome = true ∨ c.seqLength ≤ p.nextconsume) ∧ s.p.nextconsume ≤ p.nextconsume := by
            simp only [Prefetch.step] at hp
            split at hp
            · cases hp
            · split at hp
              · cases hp
              · split at hp
                all_goals first
                  | (cases hp; done)
                  | skip
                all_goals
                  cases hq : Prefetch.refill c s.p s.blk with
                  | ok s1 =>
                    rw [hq] at hp
                    simp only at hp
                    have := key hq
                    split at hp
                    · rename_i hle
                      injection hp with hp; subst hp
                      exact ⟨.inr hle, by omega⟩
                    · injection hp with hp; subst hp
                      refine ⟨.inl rfl, ?_⟩
                      show _ ≤ s1.nextconsume + 1
                      omega
                  | _ => rw [hq] at hp; cases hp
          subst hs
          dsimp only
          split
          · intro h
            exact Nat.le_trans (ih h) hcase.2
          · rename_i hno
            intro _
            rcases hcase.1 with h | h
            · exact absurd h hno
            · exact h
        all_goals cases hs
      · cases hs
    | _ =>
      simp only [iStep] at hs
      unfold lift at hs
      split at hs
      · rename_i p hp
        injection hs with hs
        subst hs
        simp only [Prefetch.step] at hp
        split at hp
        · injection hp with hp; subst hp; exact ih
        · cases hp
      all_goals cases hs

theorem upTo_congr {rev : Bool} {c c' : Prefetch.Cfg (List α)} {k : Nat} (h : ∀ j, j < k → c.disk j = c'.disk j) : upTo rev c k = upTo rev c' k := by
  unfold upTo
  rw [List.flatMap_def, List.flatMap_def, List.map_congr_left]
  intro j hj
  rw [h j (List.mem_range.1 hj)]

theorem upTo_length {rev : Bool} {c : Prefetch.Cfg (List α)} {size k : Nat} (h : ∀ j, j < k → (c.disk j).length = size) : (upTo rev c k).length = k * size := by
  induction k with
  | zero => simp [upTo]
  | succ k ih =>
    rw [upTo_succ, List.length_append, ih (fun j hj => h j (by omega)), deliver_length, h k (by omega), Nat.succ_mul]

end Foxxll.Stream

namespace Foxxll.E2E
open Foxxll

variable {α : Type} {k : Queue.Kind} {qid : Nat → Nat} {cfgs : List (Nat × Bool)}
variable {rev : Bool} {L : Layout α} {c : ICfg} {base : Nat} {val : Nat → List α} {s : ISys α} {h : Store.Hist} {arr : Nat → Option (List α)}

/-- A block that was handed out and given back has arrived unchanged. -/
theorem II.right (I : II k qid cfgs rev L c base val s h arr) (ok : IOk L c val) {j : Nat} (hj : j < s.i.p.returned.length)
    (hh : ∀ b, (j, b) ∉ s.i.p.held) : view arr val j = val j := by
  have P := I.pinv ok
  have X := Prefetch.reach_extra (ok.order _).good (I.iinv ok).reach
  unfold view
  cases hv : arr j with
  | none => rfl
  | some v =>
    rcases I.good j v hv with h | ⟨b, st, r, h1, _, _⟩
    · exact h
    · refine absurd (X.cur b j st h1 ?_) (hh b)
      rw [P.ret]
      exact List.mem_range.2 hj

/-- What the stream has delivered: the blocks given back are right. -/
theorem II.got (I : II k qid cfgs rev L c base val s h arr) (ok : IOk L c val) :
    ∃ m rest, m ≤ c.bids.length ∧ s.i.got = Stream.upTo rev (c.on val) m ++ rest ∧ rest.length ≤ L.size ∧
      (s.i.notFinished = false → s.i.pc = .idle → m = c.bids.length ∧ rest = []) := by
  have P := I.pinv ok
  have S := I.iinv ok
  have hret : s.i.p.returned.length ≤ c.bids.length := by
    have h1 : s.i.p.nextconsume ≤ c.bids.length := P.nc
    rcases P.wait with h | h <;> omega
  have hvl : ∀ j, j < c.bids.length → (view arr val j).length = L.size := by
    intro n hn
    unfold view
    cases hv : arr n with
    | none => exact ok.len n hn
    | some v => exact I.alen n v hv
  have hup : ∀ m, m ≤ s.i.p.returned.length → (∀ j b, j < m → (j, b) ∉ s.i.p.held) →
      Stream.upTo rev (c.on (view arr val)) m = Stream.upTo rev (c.on val) m := by
    intro m hm hh
    exact Stream.upTo_congr (fun j hj => I.right ok (by omega) (fun b => hh j b hj))
  cases S.shape with
  | idle k' a1 a2 a3 a4 a5 a6 =>
    refine ⟨k', (Stream.deliver rev (view arr val k')).take (Stream.pos rev L.size s.i.elem), by omega, ?_, ?_, ?_⟩
    · rw [a6, hup k' (by omega) ?_]
      · rfl
      · intro j b hj hm
        rw [a4] at hm
        simp only [List.mem_singleton, Prod.mk.injEq] at hm
        omega
    · rw [List.length_take, Stream.deliver_length, hvl k' (by omega)]; omega
    · intro h; rw [a2] at h; cases h
  | consuming k' a1 a3 a4 a5 a6 a7 =>
    refine ⟨k', Stream.deliver rev (view arr val k'), by omega, ?_, ?_, ?_⟩
    · rw [a7, Stream.upTo_succ, hup k' (by omega) ?_]
      · rfl
      · intro j b hj hm
        rw [a4] at hm
        simp only [List.mem_singleton, Prod.mk.injEq] at hm
        omega
    · rw [Stream.deliver_length, hvl k' (by omega)]; omega
    · intro _ h; rw [a1] at h; cases h
  | waiting a1 a3 a4 a6 a7 =>
    refine ⟨s.i.p.returned.length, [], hret, ?_, by simp, ?_⟩
    · rw [a7, hup _ (Nat.le_refl _) (by rw [a4]; simp), List.append_nil]
    · intro _ h; rw [a1] at h; cases h
  | finished a1 a2 a3 a4 a6 =>
    have hend : c.bids.length ≤ s.i.p.nextconsume := Stream.ireach_end (I.reach (view arr val) view_agrees) a2
    have hlen : s.i.p.returned.length = c.bids.length := by
      rcases P.wait with h | h
      · omega
      · rw [a3] at h; cases h.1
    refine ⟨c.bids.length, [], Nat.le_refl _, ?_, by simp, fun _ _ => ⟨rfl, rfl⟩⟩
    rw [a6, List.append_nil]
    exact hup _ (by show c.bids.length ≤ _; omega) (by rw [a4]; simp)

/-! ### Runs -/

/-- Events of the workers only. -/
def OEv.plain : OEv α → Bool
  | .env (.run _ _ _) => true
  | .env _ => false
  | _ => true

def OEv.freshB (d : Store.St) : OEv α → Bool
  | .work _ _ r => (d.reqs r).isNone
  | _ => true

/-- Run the events one after the other; those that are not possible are left out. -/
def runO (k : Queue.Kind) (qid : Nat → Nat) (L : Layout α) (c : Stream.OCfg) (base : Nat) : OSys α → Store.Hist → List (OEv α) → OSys α × Store.Hist
  | s, h, [] => (s, h)
  | s, h, ev :: evs =>
    if ev.plain && ev.freshB s.d then
      match s.step k qid L c base ev with
      | .ok s' => runO k qid L c base s' (after s.d h (s.store L c base ev)) evs
      | _ => runO k qid L c base s h evs
    else runO k qid L c base s h evs

theorem runO_run {L : Layout α} {c : Stream.OCfg} {base : Nat} (evs : List (OEv α)) : ∀ {s : OSys α} {h : Store.Hist}, ORun k qid cfgs L c base s h →
    ORun k qid cfgs L c base (runO k qid L c base s h evs).1 (runO k qid L c base s h evs).2 := by
  induction evs with
  | nil => intro s h hr; exact hr
  | cons ev evs ih =>
    intro s h hr
    simp only [runO]
    split
    · rename_i hb
      simp only [Bool.and_eq_true] at hb
      split
      · rename_i s' hs
        refine ih (.next ev hr ?_ ?_ hs)
        · cases ev with
          | work p ch r => simpa [OEv.freshB, OEv.Fresh] using hb.2
          | _ => trivial
        · cases ev with
          | env op =>
            cases op with
            | run i o os => exact ⟨trivial, fun _ _ e => (by cases e), trivial⟩
            | _ => simp [OEv.plain] at hb
          | _ => trivial
      · exact ih hr
    · exact ih hr

def IEv.plain : IEv → Bool
  | .env (.run _ _ _) => true
  | .env _ => false
  | _ => true

def IEv.freshB (d : Store.St) : IEv → Bool
  | .issue r => (d.reqs r).isNone
  | _ => true

def runI (k : Queue.Kind) (qid : Nat → Nat) (rev : Bool) (L : Layout α) (c : ICfg) (base : Nat) : ISys α → Store.Hist → List IEv → ISys α × Store.Hist
  | s, h, [] => (s, h)
  | s, h, ev :: evs =>
    if ev.plain && ev.freshB s.d then
      match s.step k qid rev L c base ev with
      | .ok s' => runI k qid rev L c base s' (after s.d h (s.store L c base ev)) evs
      | _ => runI k qid rev L c base s h evs
    else runI k qid rev L c base s h evs

theorem runI_run {rev : Bool} {L : Layout α} {c : ICfg} {base : Nat} {d0 : Store.St} {h0 : Store.Hist} (evs : List IEv) : ∀ {s : ISys α} {h : Store.Hist},
    IRun k qid cfgs rev L c base d0 h0 s h →
    IRun k qid cfgs rev L c base d0 h0 (runI k qid rev L c base s h evs).1 (runI k qid rev L c base s h evs).2 := by
  induction evs with
  | nil => intro s h hr; exact hr
  | cons ev evs ih =>
    intro s h hr
    simp only [runI]
    split
    · rename_i hb
      simp only [Bool.and_eq_true] at hb
      split
      · rename_i s' hs
        refine ih (.next ev hr ?_ ?_ hs)
        · cases ev with
          | issue r => simpa [IEv.freshB, IEv.Fresh] using hb.2
          | _ => trivial
        · cases ev with
          | env op =>
            cases op with
            | run i o os => exact ⟨trivial, fun _ _ e => (by cases e), trivial⟩
            | _ => simp [IEv.plain] at hb
          | _ => trivial
      · exact ih hr
    · exact ih hr

/-- Bytes: blocks of `n` elements followed by `f` bytes of filler. -/
def bytes (n f : Nat) : Layout UInt8 := { size := n, raw := n + f, dec := fun m => m.take n, put := fun m i x => m.set i x }

theorem bytes_ok {n f : Nat} (hn : 0 < n) : (bytes n f).Ok where
  pos := hn
  raw := by show 0 < n + f; omega
  dec := by intro m hm; change m.length = n + f at hm; show (m.take n).length = n; rw [List.length_take]; omega
  len := by intro m i x hm _; show (m.set i x).length = _; rw [List.length_set]; exact hm
  put := by intro m i x _ _; show (m.set i x).take n = (m.take n).set i x; rw [List.take_set]

/-- A writer that is done uses no buffer any more. -/
theorem closed_unused {L : Layout α} (hL : L.Ok) {c : Stream.OCfg} (hs : c.size = L.size) (hn : c.bids.Nodup) {base : Nat} {s : OSys α} {h : Store.Hist}
    (hr : ORun k qid cfgs L c base s h) (hcl : s.o.closed = true) (hpc : s.o.w.pc = .idle) : Unused qid base (base + c.n) s.d := by
  have I := orun_inv hL hs hn hr
  have hpos : 0 < c.size := by rw [hs]; exact hL.pos
  have hoi := Stream.oreach_inv hpos I.reach
  have hinv := BufWriter.reach_inv (Stream.wbs_pos c) BufWriter.legal1_legal hoi.reach
  intro r q hp hq ⟨h1, h2⟩
  obtain ⟨_, b, bid, _, _, h3⟩ := I.own r q hp hq h1 h2
  have := hinv.pend b bid h3
  rw [(hoi.fin hcl hpc).1] at this
  cases this

/-- A store with one disk after the allocation of blocks of `raw` bytes. -/
def fresh (cfgs : List (Nat × Bool)) (mem : Nat → List UInt8) (f : Nat → Nat) (out : List Mgr.Bid) : Option Store.St :=
  match Mgr.Manager.create cfgs with
  | .ok m =>
    let s := Store.init m (fun _ => Files.emptyFile) mem
    if (List.range out.length).all (fun i => decide (f i < s.m.mgr.disks.length)) && out.all (fun b => decide (0 < b.size) && (b.tmpl == 0 || b.size == b.tmpl)) then
      Store.step .twoQ id s (.mgr (.new f 0 out))
    else none
  | .error _ => none

theorem fresh_life {cfgs : List (Nat × Bool)} {mem : Nat → List UInt8} {f : Nat → Nat} {out : List Mgr.Bid} {s : Store.St} (hs : fresh cfgs mem f out = some s) :
    Store.Life .twoQ id cfgs (Store.Orderly .twoQ) s ⟨[], fun _ => []⟩ ∧ (∀ r, s.reqs r = none) ∧ s.mem = mem := by
  unfold fresh at hs
  split at hs
  · rename_i m hm
    dsimp only at hs
    split at hs
    · rename_i hb
      have ha : Store.Allowed .twoQ id (Store.init m (fun _ => Files.emptyFile) mem) (.mgr (.new f 0 out)) := by
        refine Store.allowedB_of (ids := []) (fun r hr => absurd rfl hr) ?_
        simpa [Store.allowedB] using hb
      have hl := Store.Life.next (k := .twoQ) (qid := id) (P := Store.Orderly .twoQ) _ (Store.Life.start hm (fun _ _ _ => rfl)) ha
        (fun _ _ e => by cases e) hs
      refine ⟨hl, ?_, ?_⟩ <;>
      · simp only [Store.step] at hs
        injection hs with hs
        subst hs
        first
          | rfl
          | exact fun _ => rfl
    · cases hs
  · cases hs

/-- An output stream in a fresh store, then an input stream over its blocks in its buffers. -/
theorem demo {n f : Nat} (hn : 0 < n) {cfgs : List (Nat × Bool)} {fd : Nat → Nat} {out : List Mgr.Bid} {oc : Stream.OCfg} (hs : oc.size = n)
    (hbn : oc.bids.Nodup) {evO : List (OEv UInt8)} {rev : Bool} {ic : ICfg} (hsub : ∀ b ∈ ic.bids, b ∈ oc.bids) (hnr : ic.nread ≤ oc.n)
    {evI : List IEv} {p : OSys UInt8 → ISys UInt8 → Bool}
    (hp : ((fresh cfgs (fun _ => List.replicate (n + f) 0) fd out).bind fun d =>
      if oc.bids.all (fun b => d.m.live.contains (blockAt (n + f) b)) then
        let x := runO .twoQ id (bytes n f) oc 0 ⟨Stream.OSt.init oc (fun _ => List.replicate n 0) (fun _ => ⟨0, 0⟩) 0, d, fun _ => 0⟩ ⟨[], fun _ => []⟩ evO
        if x.1.o.closed && x.1.o.w.pc == .idle then
          (ISys.init rev (bytes n f) ic x.1.d 0).map fun i => p x.1 (runI .twoQ id rev (bytes n f) ic 0 i x.2 evI).1
        else none
      else none) = some true) :
    ∃ os h s h', ORun .twoQ id cfgs (bytes n f) oc 0 os h ∧ os.o.closed = true ∧ os.o.w.pc = .idle ∧
      IRun .twoQ id cfgs rev (bytes n f) ic 0 os.d h s h' ∧ p os s = true := by
  obtain ⟨d, hd, hp⟩ := Option.bind_eq_some_iff.1 hp
  obtain ⟨hl, hreq, hmem⟩ := fresh_life hd
  split at hp
  · rename_i hlive
    rw [List.all_eq_true] at hlive
    dsimp only at hp
    split at hp
    · rename_i hfin
      simp only [Bool.and_eq_true, beq_iff_eq] at hfin
      obtain ⟨i, hi, hp⟩ := Option.map_eq_some_iff.1 hp
      have hO : ORun .twoQ id cfgs (bytes n f) oc 0 ⟨Stream.OSt.init oc (fun _ => List.replicate n 0) (fun _ => ⟨0, 0⟩) 0, d, fun _ => 0⟩ ⟨[], fun _ => []⟩ := by
        refine .start _ _ _ _ hl ?_ ?_ ?_ ?_ ?_
        · intro b hb
          show blockAt (n + f) b ∈ _
          simpa using hlive b hb
        · intro r q _ hq; rw [hreq] at hq; cases hq
        · intro r q _ hq; rw [hreq] at hq; cases hq
        · intro b _
          rw [hmem]
          refine ⟨by simp [bytes], ?_⟩
          show List.replicate n 0 = (List.replicate (n + f) 0).take n
          rw [List.take_replicate, Nat.min_eq_left (by omega)]
        · intro b; simp [bytes]
      have hO' := runO_run evO hO
      have I := orun_inv (bytes_ok hn) hs hbn hO'
      have hU := closed_unused (bytes_ok hn) hs hbn hO' hfin.1 hfin.2
      refine ⟨_, _, _, _, hO', hfin.1, hfin.2, runI_run evI (.start 0 I.life (fun b hb => I.live b (hsub b hb)) ?_ ?_ hi), hp⟩
      · intro r q hp hq ⟨h1, h2⟩
        exact hU r q hp hq ⟨h1, by omega⟩
      · intro b hb
        exact (I.mem b (by omega)).1
    · cases hp
  · cases hp

end Foxxll.E2E
