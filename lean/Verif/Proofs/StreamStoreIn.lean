import Verif.Proofs.StreamStoreOut
import Verif.Props.Store
/-
Invariant of an input stream on top of the store.
-/
set_option linter.unusedSimpArgs false

namespace Foxxll.Prefetch

variable {α : Type}

/-- Blocks handed out have been requested; a request whose block was handed out belongs to a buffer that is still held. -/
structure Extra (s : St α) : Prop where
  ret : ∀ k b, (k, b) ∈ s.returned → k ∈ s.submitted
  cur : ∀ b n st, s.reqs b = some (n, st) → n ∈ s.returned.map (·.1) → (n, b) ∈ s.held

theorem initLoop_returned {c : Cfg α} : ∀ (k i : Nat) {s s' : St α}, initLoop c k i s = .ok s' → s'.returned = s.returned := by
  intro k
  induction k with
  | zero => intro i s s' h; simp only [initLoop, Res.ok.injEq] at h; rw [h]
  | succ k ih =>
    intro i s s' h
    simp only [initLoop] at h
    split at h
    · cases h
    · split at h
      · rw [ih _ h]; rfl
      · cases h

theorem reach_extra {c : Cfg α} (hg : Good c) {s : St α} (hr : Reach c false s) : Extra s := by
  induction hr with
  | @start s h =>
    have : s.returned = [] := by
      unfold init at h
      split at h
      · exact initLoop_returned _ _ h
      · cases h
    exact ⟨by simp [this], by simp [this]⟩
  | @next s s' op hr hl hsp hs I =>
    have J := reach_inv hg hr
    cases op with
    | pull =>
      simp only [step] at hs
      split at hs
      · cases hs
      · split at hs
        · injection hs with hs; subst hs; exact ⟨I.ret, I.cur⟩
        · cases hs
    | consumed b =>
      have key : ∀ s1, refill c s b = .ok s1 → Extra s1 := by
        intro s1 h
        have hf : ∀ b' n st, b' ≠ b → s.reqs b' = some (n, st) → n ∈ s.returned.map (·.1) → (n, b') ∈ s.held.filter (fun p => p.2 != b) := by
          intro b' n st hne h1 h2
          exact List.mem_filter.2 ⟨I.cur b' n st h1 h2, by simpa using hne⟩
        unfold refill at h
        dsimp only at h
        split at h
        · split at h
          · cases h
          · rename_i n hn
            split at h
            · split at h
              · cases h
              · injection h with h
                subst h
                have hnew : n ∉ s.submitted := by
                  rw [J.sub]
                  intro hm
                  have hnd : c.seq.Nodup := hg.perm.nodup_iff.2 List.nodup_range
                  obtain ⟨j, hj⟩ := List.getElem?_of_mem hm
                  rw [List.getElem?_take] at hj
                  split at hj
                  · rename_i hlt
                    have h1 := List.getElem?_eq_some_iff.1 hj
                    have h2 := List.getElem?_eq_some_iff.1 hn
                    have := (List.getElem_inj (h₀ := h1.1) (h₁ := h2.1) hnd).1 (h1.2.trans h2.2.symm)
                    omega
                  · cases hj
                refine ⟨fun k b' hk => by simp [submit, I.ret k b' hk], ?_⟩
                intro b' n' st h1 h2
                simp only [submit, upd] at h1 h2 ⊢
                split at h1
                · injection h1 with h1
                  injection h1 with h1
                  subst h1
                  obtain ⟨⟨k', b2⟩, h3, h4⟩ := List.mem_map.1 h2
                  simp only at h4
                  subst h4
                  exact absurd (I.ret _ _ h3) hnew
                · rename_i hne
                  exact hf b' n' st hne h1 h2
            · cases h
        · injection h with h
          subst h
          refine ⟨I.ret, ?_⟩
          intro b' n' st h1 h2
          simp only [upd] at h1 h2 ⊢
          split at h1
          · cases h1
          · rename_i hne
            exact hf b' n' st hne h1 h2
      have go : ∀ {r : Res (St α)}, (r = match refill c s b with
        | .ok s' => if c.seqLength ≤ s'.nextconsume then .ok s' else .ok (beginWait s')
        | r => r) → r = .ok s' → Extra s' := by
        intro r e h
        subst h
        cases hq : refill c s b with
        | ok s1 =>
          rw [hq] at e
          simp only at e
          split at e
          · injection e with e; subst e; exact key _ hq
          · injection e with e; subst e; exact ⟨(key _ hq).ret, (key _ hq).cur⟩
        | _ => rw [hq] at e; cases e
      simp only [step] at hs
      split at hs
      · cases hs
      · split at hs
        · cases hs
        · split at hs
          · exact go rfl hs
          · exact go rfl hs
          · cases hs
    | wake =>
      simp only [step] at hs
      split at hs
      · cases hs
      · rename_i k hk
        split at hs
        · unfold handOut at hs
          split at hs
          · cases hs
          · rename_i b hb
            split at hs
            · injection hs with hs
              subst hs
              have hks : k ∈ s.submitted := by
                by_cases h : k ∈ s.submitted
                · exact h
                · rw [(J.un k h).1] at hb; cases hb
              refine ⟨?_, ?_⟩
              · intro k' b' h
                simp only [List.mem_append, List.mem_singleton, Prod.mk.injEq] at h
                rcases h with h | ⟨rfl, _⟩
                · exact I.ret _ _ h
                · exact hks
              · intro b' n st h1 h2
                simp only [List.map_append, List.map_cons, List.map_nil, List.mem_append, List.mem_singleton] at h2 ⊢
                rcases h2 with h2 | rfl
                · exact .inl (I.cur b' n st h1 h2)
                · have := (J.req b' n st h1).2.1
                  rw [hb] at this; injection this with this
                  exact .inr (by rw [this])
            · cases hs
        · cases hs
    | spurious => exact absurd (hsp rfl) (by simp)
    | _ =>
      simp only [step] at hs
      split at hs
      · rename_i n hn
        injection hs with hs
        subst hs
        refine ⟨I.ret, ?_⟩
        intro b' n' st h1 h2
        simp only [upd] at h1
        split at h1
        · rename_i e
          subst e
          injection h1 with h1; injection h1 with h1
          subst h1
          exact I.cur _ _ _ hn h2
        · exact I.cur b' n' st h1 h2
      · cases hs

end Foxxll.Prefetch

namespace Foxxll.E2E
open Foxxll

variable {α : Type} {k : Queue.Kind} {qid : Nat → Nat} {cfgs : List (Nat × Bool)}

/-! ### The stream -/

theorem iStep_disk {rev : Bool} {size : Nat} {c : ICfg} (d1 d2 : Nat → List α) (s : Stream.ISt α) {op : Stream.IOp} (h : ∀ b, op ≠ .copy b) :
    Stream.iStep rev size (c.on d1) s op = Stream.iStep rev size (c.on d2) s op := by
  cases op with
  | copy b => exact absurd rfl (h b)
  | _ => rfl

theorem initLoop_disk {c : ICfg} (d1 d2 : Nat → List α) : ∀ (k i : Nat) (s : Prefetch.St (List α)),
    Prefetch.initLoop (c.on d1) k i s = Prefetch.initLoop (c.on d2) k i s := by
  intro k
  induction k with
  | zero => intro i s; rfl
  | succ k ih =>
    intro i s
    simp only [Prefetch.initLoop, ih]
    rfl

theorem initLoop_reqs {c : Prefetch.Cfg (List α)} : ∀ (k i : Nat) {s s' : Prefetch.St (List α)}, Prefetch.initLoop c k i s = .ok s' →
    (∀ b n st, s.reqs b = some (n, st) → st = .issued) → (∀ b, b < i → ∃ n, s.reqs b = some (n, .issued)) →
    (∀ b n st, s'.reqs b = some (n, st) → st = .issued) ∧ ∀ b, b < i + k → ∃ n, s'.reqs b = some (n, .issued) := by
  intro k
  induction k with
  | zero => intro i s s' h h1 h2; simp only [Prefetch.initLoop, Prefetch.Res.ok.injEq] at h; subst h; exact ⟨h1, h2⟩
  | succ k ih =>
    intro i s s' h h1 h2
    simp only [Prefetch.initLoop] at h
    split at h
    · cases h
    · rename_i n hn
      split at h
      · have := ih (i + 1) h ?_ ?_
        · rw [show i + (k + 1) = i + 1 + k by omega]; exact this
        · intro b m st hb
          simp only [Prefetch.submit, Prefetch.upd] at hb
          split at hb
          · injection hb with hb; injection hb with _ hb; exact hb.symm
          · exact h1 b m st hb
        · intro b hb
          simp only [Prefetch.submit, Prefetch.upd]
          split
          · exact ⟨n, rfl⟩
          · exact h2 b (by omega)
      · cases h

theorem iInit_disk {rev : Bool} {size : Nat} {c : ICfg} (d1 d2 : Nat → List α) (blk : Nat) :
    Stream.iInit rev size (c.on d1) blk = Stream.iInit rev size (c.on d2) blk := by
  have h1 : Prefetch.init (c.on d1) = Prefetch.init (c.on d2) := by
    unfold Prefetch.init
    rw [show (c.on d1).nread = (c.on d2).nread from rfl, initLoop_disk d1 d2]
    rfl
  unfold Stream.iInit
  rw [h1]
  rfl

/-- Steps that neither submit nor complete a transfer. -/
structure Same (s i : Stream.ISt α) : Prop where
  sub : i.p.submitted = s.p.submitted
  fwd : ∀ b n st, s.p.reqs b = some (n, st) → ∃ st', i.p.reqs b = some (n, st') ∧ (st' = .issued ↔ st = .issued)
  bwd : ∀ b n st, i.p.reqs b = some (n, st) → ∃ st', s.p.reqs b = some (n, st') ∧ (st = .issued ↔ st' = .issued)

theorem same_of {s i : Stream.ISt α} (h1 : i.p.submitted = s.p.submitted) (h2 : i.p.reqs = s.p.reqs) : Same s i :=
  ⟨h1, fun _ _ st h => ⟨st, by rw [h2]; exact h, Iff.rfl⟩, fun _ _ st h => ⟨st, by rw [← h2]; exact h, Iff.rfl⟩⟩

theorem same_upd {s i : Stream.ISt α} {b n : Nat} {st st' : Prefetch.Stage} (h0 : s.p.reqs b = some (n, st)) (hst : st ≠ .issued) (hst' : st' ≠ .issued)
    (h1 : i.p.submitted = s.p.submitted) (h2 : i.p.reqs = Prefetch.upd s.p.reqs b (some (n, st'))) : Same s i := by
  refine ⟨h1, ?_, ?_⟩
  · intro b' n' st2 h
    rw [h2]
    by_cases e : b' = b
    · subst e
      rw [h0] at h; injection h with h; injection h with h3 h4; subst h3; subst h4
      exact ⟨st', by simp [Prefetch.upd], by simp [hst, hst']⟩
    · exact ⟨st2, by simp [Prefetch.upd, e, h], Iff.rfl⟩
  · intro b' n' st2 h
    rw [h2] at h
    by_cases e : b' = b
    · subst e
      simp only [Prefetch.upd, if_true, Option.some.injEq, Prod.mk.injEq] at h
      obtain ⟨rfl, rfl⟩ := h
      exact ⟨st, h0, by simp [hst, hst']⟩
    · simp only [Prefetch.upd, e, if_false] at h
      exact ⟨st2, h, Iff.rfl⟩

theorem step_same {rev : Bool} {size : Nat} {c : Prefetch.Cfg (List α)} {s i : Stream.ISt α} {op : Stream.IOp}
    (ho : op = .advance ∨ op = .wake ∨ (∃ b, op = .signal b) ∨ ∃ b, op = .finish b) (h : Stream.iStep rev size c s op = .ok i) : Same s i := by
  rcases ho with rfl | rfl | ⟨b, rfl⟩ | ⟨b, rfl⟩
  · simp only [Stream.iStep] at h
    repeat' split at h
    all_goals first
      | (cases h; done)
      | skip
    all_goals
      injection h with h
      subst h
      exact same_of rfl rfl
  · simp only [Stream.iStep] at h
    split at h
    · unfold Stream.lift at h
      split at h
      · rename_i p hp
        injection h with h
        subst h
        simp only [Prefetch.step] at hp
        split at hp
        · cases hp
        · split at hp
          · unfold Prefetch.handOut at hp
            split at hp
            · cases hp
            · split at hp
              · injection hp with hp; subst hp; exact same_of rfl rfl
              · cases hp
          · cases hp
      · cases h
      · cases h
      · cases h
    · cases h
  all_goals
    simp only [Stream.iStep] at h
    unfold Stream.lift at h
    split at h
    · rename_i p hp
      injection h with h
      subst h
      simp only [Prefetch.step] at hp
      split at hp
      · rename_i n hn
        injection hp with hp
        subst hp
        exact same_upd hn (by simp) (by simp) rfl rfl
      · cases hp
    · cases h
    · cases h
    · cases h

theorem consume_cases {rev : Bool} {size : Nat} {c : Prefetch.Cfg (List α)} {s i : Stream.ISt α} (h : Stream.iStep rev size c s .consume = .ok i) :
    s.pc = .consuming ∧ (∀ n st, s.p.reqs s.blk = some (n, st) → st = .ready) ∧
      ((i.p.submitted = s.p.submitted ∧ i.p.reqs = Prefetch.upd s.p.reqs s.blk none) ∨
        ∃ n, c.seq[s.p.nextread]? = some n ∧ i.p.submitted = s.p.submitted ++ [n] ∧ i.p.reqs = Prefetch.upd s.p.reqs s.blk (some (n, .issued))) := by
  have hu : ∀ (f : Nat → Option (Nat × Prefetch.Stage)) b x, Prefetch.upd (Prefetch.upd f b none) b x = Prefetch.upd f b x := by
    intro f b x
    funext j
    simp only [Prefetch.upd]
    split <;> rfl
  have key : ∀ s1, Prefetch.refill c s.p s.blk = .ok s1 →
      ((s1.submitted = s.p.submitted ∧ s1.reqs = Prefetch.upd s.p.reqs s.blk none) ∨
        ∃ n, c.seq[s.p.nextread]? = some n ∧ s1.submitted = s.p.submitted ++ [n] ∧ s1.reqs = Prefetch.upd s.p.reqs s.blk (some (n, .issued))) := by
    intro s1 h
    unfold Prefetch.refill at h
    dsimp only at h
    split at h
    · split at h
      · cases h
      · rename_i n hn
        split at h
        · split at h
          · cases h
          · injection h with h
            subst h
            exact .inr ⟨n, hn, rfl, hu _ _ _⟩
        · cases h
    · injection h with h
      subst h
      exact .inl ⟨rfl, rfl⟩
  simp only [Stream.iStep] at h
  split at h
  · rename_i hpc
    unfold Stream.lift at h
    split at h
    · rename_i p hp
      injection h with h
      have hip : i.p = p := by
        subst h
        dsimp only
        split <;> rfl
      rw [hip]
      simp only [Prefetch.step] at hp
      split at hp
      · cases hp
      · split at hp
        · cases hp
        · split at hp
          · rename_i hn
            refine ⟨hpc, ?_, ?_⟩
            rotate_left
            · cases hq : Prefetch.refill c s.p s.blk with
              | ok s1 =>
                rw [hq] at hp
                simp only at hp
                split at hp
                · injection hp with hp; subst hp; exact key _ hq
                · injection hp with hp; subst hp; exact key s1 hq
              | _ => rw [hq] at hp; cases hp
            intro n st h; rw [hn] at h; cases h
          · rename_i n0 hn
            refine ⟨hpc, ?_, ?_⟩
            rotate_left
            · cases hq : Prefetch.refill c s.p s.blk with
              | ok s1 =>
                rw [hq] at hp
                simp only at hp
                split at hp
                · injection hp with hp; subst hp; exact key _ hq
                · injection hp with hp; subst hp; exact key s1 hq
              | _ => rw [hq] at hp; cases hp
            intro n st h; rw [hn] at h; injection h with h; injection h with _ h; exact h.symm
          · cases hp
    · cases h
    · cases h
    · cases h
  · cases h

/-! ### The store -/

theorem last_congr {c1 c2 : List Nat} {l : List Store.Wrote} (h : ∀ e ∈ l, (e.r ∈ c2 ↔ e.r ∈ c1)) : Store.last c2 l = Store.last c1 l := by
  unfold Store.last
  induction l with
  | nil => rfl
  | cons a l ih =>
    simp only [List.find?_cons]
    have ha := h a (by simp)
    have : c2.contains a.r = c1.contains a.r := by
      rw [Bool.eq_iff_iff]; simp [ha]
    rw [this, ih (fun e he => h e (by simp [he]))]

/-- Requests of entries concern the block. -/
theorem entry_req {d : Store.St} {h : Store.Hist} (J : Store.Inv k qid cfgs d h) {raw : Nat} {b : BufWriter.Bid} (hb : blockAt raw b ∈ d.m.live)
    {e : Store.Wrote} (he : e ∈ h.of (blockAt raw b)) : ∃ q, d.reqs e.r = some q ∧ q.On (blockAt raw b) := by
  obtain ⟨q, h1, _, h3, h4, h5, _⟩ := (J.trk _ hb b.file rfl).req e he
  exact ⟨q, h1, by rw [h3]; rfl, h4.symm, h5.symm⟩

theorem Last.keep {L : Layout α} {d d' : Store.St} {h h' : Store.Hist} {b : BufWriter.Bid} {v : List α} {op : Store.Op} (hl : Last L d h qid b v)
    (J : Store.Inv k qid cfgs d h) (hb : blockAt L.raw b ∈ d.m.live) (E : Store.Eff qid d d' op)
    (hc : ∀ r q, op = .cancel r → d.reqs r = some q → ¬ q.On (blockAt L.raw b)) (hof : h'.of (blockAt L.raw b) = h.of (blockAt L.raw b)) :
    Last L d' h' qid b v := by
  obtain ⟨e, h1, h2, h3, h4⟩ := hl
  have hm : e ∈ h.of (blockAt L.raw b) := List.mem_of_find?_eq_some h1
  obtain ⟨q, hq, _⟩ := entry_req J hb hm
  refine ⟨e, ?_, E.finished hq h2, ?_, h4⟩
  · rw [hof, ← h1]
    refine last_congr ?_
    intro e' he'
    refine ⟨?_, fun h => E.can _ _ h⟩
    intro h
    rcases E.can' _ _ h with h | h
    · exact h
    · obtain ⟨q', hq', hon⟩ := entry_req J hb he'
      exact absurd hon (hc _ _ h hq')
  · intro hf
    rcases E.fail _ hf with h | ⟨h, _⟩
    · exact h3 h
    · exact h2 h

theorem seen_keep {d : Store.St} {h : Store.Hist} {op : Store.Op} {r : Nat} {q : Store.Req} (hq : d.reqs r = some q) (ha : Store.Allowed k qid d op) :
    (h.next d op).seen r = h.seen r := by
  cases op with
  | mgr op => cases op <;> rfl
  | fill buf data => rfl
  | io r' w b buf =>
    cases w with
    | true => rfl
    | false =>
      have hne : r ≠ r' := by
        intro e; subst e
        rw [ha.1] at hq; cases hq
      simp [Store.Hist.next, Store.upd, hne]
  | cancel r => rfl
  | run i op os => rfl

/-! ### Both together -/

/-- `arr n`: what has arrived for block `n`; `val n`: what was written to it. -/
structure II (k : Queue.Kind) (qid : Nat → Nat) (cfgs : List (Nat × Bool)) (rev : Bool) (L : Layout α) (c : ICfg) (base : Nat) (val : Nat → List α)
    (s : ISys α) (h : Store.Hist) (arr : Nat → Option (List α)) : Prop where
  life : Store.Life k qid cfgs (Store.Orderly k) s.d h
  live : ∀ b ∈ c.bids, blockAt L.raw b ∈ s.d.m.live
  reach : ∀ disk, (∀ n v, arr n = some v → disk n = v) → Stream.IReach rev L.size (c.on disk) false s.i
  alen : ∀ n v, arr n = some v → v.length = L.size
  asub : ∀ n v, arr n = some v → n ∈ s.i.p.submitted
  new : ∀ b n, s.i.p.reqs b = some (n, .issued) → arr n = none
  good : ∀ n v, arr n = some v → v = val n ∨ ∃ b st r, s.i.p.reqs b = some (n, st) ∧ s.rid b = some r ∧ r ∈ s.d.failed
  own : ∀ r q, Store.Pending qid s.d r → s.d.reqs r = some q → base ≤ q.buf → q.buf < base + c.nread →
    q.write = false ∧ ∃ b, q.buf = base + b ∧ s.rid b = some r
  todo : ∀ b ∈ s.todo, b < c.nread ∧ s.rid b = none ∧ ∃ n, s.i.p.reqs b = some (n, .issued)
  nd : s.todo.Nodup
  srv : ∀ b n st, s.i.p.reqs b = some (n, st) → st ≠ .issued → ∃ r, s.rid b = some r ∧ ¬ Store.Pending qid s.d r
  rq : ∀ b n st r, s.i.p.reqs b = some (n, st) → s.rid b = some r → ∃ bid, c.bids[n]? = some bid ∧
    s.d.reqs r = some ⟨bid.file, false, bid.offset, L.raw, base + b⟩ ∧ r ∉ (s.d.qs (qid bid.file)).cancelled ∧
    (Store.Pending qid s.d r → ∃ e, Store.last (s.d.qs (qid bid.file)).cancelled (h.seen r) = some e ∧ e.r ∉ s.d.failed ∧
      ¬ Store.Pending qid s.d e.r ∧ L.dec e.data = val n) ∧
    (¬ Store.Pending qid s.d r → r ∉ s.d.failed → L.dec (s.d.mem (base + b)) = val n)
  val : ∀ n bid, c.bids[n]? = some bid → Last L s.d h qid bid (val n)
  mem : ∀ b, b < c.nread → (s.d.mem (base + b)).length = L.raw

/-- Arguments for which the theorems hold. -/
structure IOk (L : Layout α) (c : ICfg) (val : Nat → List α) : Prop where
  lay : L.Ok
  ord : c.seq.Perm (List.range c.bids.length)
  pos : 0 < c.bids.length
  bufs : 0 < c.bufSize
  len : ∀ n, n < c.bids.length → (val n).length = L.size

theorem IOk.order {L : Layout α} {c : ICfg} {val : Nat → List α} (ok : IOk L c val) (disk : Nat → List α) : Prefetch.OrderOk (c.on disk) :=
  ⟨ok.ord, ok.pos, ok.bufs⟩

/-- The disk as the stream has seen it. -/
def view (arr : Nat → Option (List α)) (val : Nat → List α) (n : Nat) : List α := (arr n).getD (val n)

theorem view_agrees {arr : Nat → Option (List α)} {val : Nat → List α} : ∀ n v, arr n = some v → view arr val n = v := by
  intro n v h; simp [view, h]

section
variable {rev : Bool} {L : Layout α} {c : ICfg} {base : Nat} {val : Nat → List α} {s : ISys α} {h : Store.Hist} {arr : Nat → Option (List α)}

theorem II.iinv (I : II k qid cfgs rev L c base val s h arr) (ok : IOk L c val) : Stream.IInv rev L.size (c.on (view arr val)) s.i := by
  refine Stream.ireach_inv ok.lay.pos (ok.order _) ?_ (I.reach _ view_agrees)
  intro n hn
  show (view arr val n).length = _
  unfold view
  cases hv : arr n with
  | none => exact ok.len n hn
  | some v => exact I.alen n v hv

theorem II.pinv (I : II k qid cfgs rev L c base val s h arr) (ok : IOk L c val) : Prefetch.Inv (c.on (view arr val)) s.i.p :=
  Prefetch.reach_inv (ok.order _).good (I.iinv ok).reach

theorem II.env (I : II k qid cfgs rev L c base val s h arr) (ok : IOk L c val)
    {op : Store.Op} (ha : Store.Allowed k qid s.d op) (ho : Store.Orderly k op) (hf : Foreign (c.bids.map (blockAt L.raw)) base (base + c.nread) s.d op)
    {d' : Store.St} (hs : Store.step k qid s.d op = some d') : II k qid cfgs rev L c base val { s with d := d' } (h.next s.d op) arr := by
  have J := Store.life_inv I.life
  have E := Store.step_eff J ha hs
  have P := I.pinv ok
  have hcan : ∀ bid ∈ c.bids, ∀ r q, op = .cancel r → s.d.reqs r = some q → ¬ q.On (blockAt L.raw bid) := by
    intro bid hb r q e hq
    subst e
    exact hf q hq _ (List.mem_map_of_mem hb)
  refine ⟨.next op I.life ha ho hs, ?_, I.reach, I.alen, I.asub, I.new, ?_, ?_, I.todo, I.nd, ?_, ?_, ?_, ?_⟩
  · intro b hb
    rcases E.live _ (I.live b hb) with h | h
    · exact h
    · subst h
      exact absurd (List.mem_map_of_mem hb) hf
  · intro n v hv
    rcases I.good n v hv with h | ⟨b, st, r, h1, h2, h3⟩
    · exact .inl h
    · exact .inr ⟨b, st, r, h1, h2, E.fail' r h3⟩
  · intro r q hp hq h1 h2
    rcases E.pending hq hp with ⟨h3, h4⟩ | ⟨w, b', buf, h3, h4, h5⟩
    · exact I.own r q h4 h3 h1 h2
    · subst h3
      rw [h5] at h1 h2
      exact absurd ⟨h1, h2⟩ hf.2
  · intro b n st h1 h2
    obtain ⟨r, h3, h4⟩ := I.srv b n st h1 h2
    obtain ⟨bid, _, h6, _⟩ := I.rq b n st r h1 h3
    exact ⟨r, h3, E.finished h6 h4⟩
  · intro b n st r h1 h2
    obtain ⟨bid, h3, h4, h5, h6, h7⟩ := I.rq b n st r h1 h2
    have hbid : bid ∈ c.bids := List.mem_of_getElem? h3
    have hon : Store.Req.On ⟨bid.file, false, bid.offset, L.raw, base + b⟩ (blockAt L.raw bid) := ⟨rfl, rfl, rfl⟩
    have hnc : r ∉ (d'.qs (qid bid.file)).cancelled := by
      intro hc
      rcases E.can' _ _ hc with h | h
      · exact h5 h
      · exact hcan bid hbid r _ h h4 hon
    refine ⟨bid, h3, E.req _ _ h4, hnc, ?_, ?_⟩
    · intro hp
      have hp0 : Store.Pending qid s.d r := by
        by_cases h : Store.Pending qid s.d r
        · exact h
        · exact absurd hp (E.finished h4 h)
      obtain ⟨e, e1, e2, e3, e4⟩ := h6 hp0
      have hT := (J.rd r _ hp0 h4 rfl).1
      obtain ⟨q, hq, _⟩ := hT.req e (List.mem_of_find?_eq_some e1)
      refine ⟨e, ?_, ?_, E.finished hq e3, e4⟩
      · rw [seen_keep h4 ha, ← e1]
        refine last_congr ?_
        intro e' he'
        refine ⟨?_, fun h => E.can _ _ h⟩
        intro h
        rcases E.can' _ _ h with h | h
        · exact h
        · obtain ⟨q', hq', _, g3, g4, g5, _⟩ := hT.req e' he'
          exact absurd ⟨by rw [g3]; rfl, g4.symm, g5.symm⟩ (hcan bid hbid _ q' h hq')
      · intro hc
        rcases E.fail _ hc with h | ⟨h, _⟩
        · exact e2 h
        · exact e3 h
    · intro hnp hnf
      have hnf0 : r ∉ s.d.failed := fun h => hnf (E.fail' r h)
      by_cases hp : Store.Pending qid s.d r
      · obtain ⟨e, e1, e2, e3, e4⟩ := h6 hp
        obtain ⟨q0, g1, g2, g3⟩ := hp
        rw [h4] at g1; injection g1 with g1; subst g1
        have hsv : r ∈ (d'.qs (qid bid.file)).served := by
          by_cases hsv : r ∈ (d'.qs (qid bid.file)).served
          · exact hsv
          · exact absurd ⟨_, E.req _ _ h4, hsv, hnc⟩ hnp
        rcases E.srv' _ _ hsv with h | ⟨os, e5, e6⟩
        · exact absurd h g2
        · subst e5
          have := Store.C98_partial I.life e6 h4 rfl hs hnf e1 e2
          show L.dec (d'.mem (base + b)) = _
          rw [← e4, ← this]
      · show L.dec (d'.mem (base + b)) = _
        have hb : b < c.nread := (P.req b n st h1).2.2.1
        rcases E.mem (base + b) with h | ⟨data, h, _⟩ | ⟨_, i, r', q, os, _, _, g3, g4, _, g6, g7⟩
        · rw [h]; exact h7 hp hnf0
        · subst h
          exact absurd ⟨Nat.le_add_right _ _, Nat.add_lt_add_left hb _⟩ hf
        · obtain ⟨_, b', g8, g9⟩ := I.own r' q g4 g3 (by omega) (by omega)
          have : b' = b := by omega
          subst this
          rw [h2] at g9; injection g9 with g9; subst g9
          exact absurd g4 hp
  · intro n bid hb
    have hbid : bid ∈ c.bids := List.mem_of_getElem? hb
    exact (I.val n bid hb).keep J (I.live _ hbid) E (hcan bid hbid) (of_foreign hf (List.mem_map_of_mem hbid))
  · intro b hb
    show (d'.mem (base + b)).length = _
    rcases E.mem (base + b) with h | ⟨data, h, _⟩ | ⟨h, _⟩
    · rw [h]; exact I.mem b hb
    · subst h
      exact absurd ⟨Nat.le_add_right _ _, Nat.add_lt_add_left hb _⟩ hf
    · rw [h]; exact I.mem b hb

/-- The client's steps and completion, other than `block_consumed`. -/
theorem II.same (I : II k qid cfgs rev L c base val s h arr) {op : Stream.IOp} {i : Stream.ISt α}
    (ho : op = .advance ∨ op = .wake ∨ (∃ b, op = .signal b) ∨ ∃ b, op = .finish b)
    (hs : Stream.iStep rev L.size (c.on (fun _ => [])) s.i op = .ok i) : II k qid cfgs rev L c base val { s with i := i } h arr := by
  have S := step_same ho hs
  have hnc : ∀ b, op ≠ .copy b := by
    intro b e; subst e
    rcases ho with h | h | ⟨_, h⟩ | ⟨_, h⟩ <;> cases h
  have hsp : op = .spurious → false = true := by
    intro e; subst e
    rcases ho with h | h | ⟨_, h⟩ | ⟨_, h⟩ <;> cases h
  refine ⟨I.life, I.live, ?_, I.alen, ?_, ?_, ?_, I.own, ?_, I.nd, ?_, ?_, I.val, I.mem⟩
  · intro disk hd
    exact .next op (I.reach disk hd) hsp (by rw [iStep_disk disk (fun _ => []) s.i hnc]; exact hs)
  · intro n v hv
    show n ∈ i.p.submitted
    rw [S.sub]; exact I.asub n v hv
  · intro b n hb
    obtain ⟨st', h1, h2⟩ := S.bwd b n _ hb
    rw [h2.1 rfl] at h1
    exact I.new b n h1
  · intro n v hv
    rcases I.good n v hv with h | ⟨b, st, r, h1, h2, h3⟩
    · exact .inl h
    · obtain ⟨st', h4, _⟩ := S.fwd b n st h1
      exact .inr ⟨b, st', r, h4, h2, h3⟩
  · intro b hb
    obtain ⟨h1, h2, n, h3⟩ := I.todo b hb
    obtain ⟨st', h4, h5⟩ := S.fwd b n _ h3
    rw [h5.2 rfl] at h4
    exact ⟨h1, h2, n, h4⟩
  · intro b n st h1 h2
    obtain ⟨st', h3, h4⟩ := S.bwd b n st h1
    exact I.srv b n st' h3 (fun e => h2 (h4.2 e))
  · intro b n st r h1 h2
    obtain ⟨st', h3, _⟩ := S.bwd b n st h1
    exact I.rq b n st' r h3 h2

/-- A read is submitted. -/
theorem II.issue (I : II k qid cfgs rev L c base val s h arr) {b n r : Nat} {rest : List Nat} {bid : BufWriter.Bid} (ht : s.todo = b :: rest)
    (hn : s.i.p.reqs b = some (n, .issued)) (hbid : c.bids[n]? = some bid) (hfr : s.d.reqs r = none)
    {d' : Store.St} (hs : Store.step k qid s.d (.io r false (blockAt L.raw bid) (base + b)) = some d') :
    II k qid cfgs rev L c base val { s with d := d', rid := Prefetch.upd s.rid b (some r), todo := rest }
      (h.next s.d (.io r false (blockAt L.raw bid) (base + b))) arr := by
  have J := Store.life_inv I.life
  have hbm : bid ∈ c.bids := List.mem_of_getElem? hbid
  obtain ⟨hb, hrb, _⟩ := I.todo b (by rw [ht]; simp)
  have hnb : ∀ r' q, Store.Pending qid s.d r' → s.d.reqs r' = some q → q.buf ≠ base + b := by
    intro r' q hp hq e
    obtain ⟨_, b', h1, h2⟩ := I.own r' q hp hq (by omega) (by omega)
    have : b' = b := by omega
    subst this
    rw [hrb] at h2; cases h2
  have ha : Store.Allowed k qid s.d (.io r false (blockAt L.raw bid) (base + b)) :=
    ⟨hfr, I.live _ hbm, I.mem b hb, fun r' q hp hq e => absurd e (hnb r' q hp hq), fun e => by cases e⟩
  have ho : Store.Orderly k (.io r false (blockAt L.raw bid) (base + b)) := fun _ _ e => by cases e
  have E := Store.step_eff J ha hs
  have hof : ∀ b', (h.next s.d (.io r false (blockAt L.raw bid) (base + b))).of b' = h.of b' := fun _ => rfl
  have hval : ∀ n bid', c.bids[n]? = some bid' → Last L d' (h.next s.d (.io r false (blockAt L.raw bid) (base + b))) qid bid' (val n) :=
    fun n bid' hb' => (I.val n bid' hb').keep J (I.live _ (List.mem_of_getElem? hb')) E (fun _ _ e => by cases e) (hof _)
  have hmem : ∀ b', d'.mem (base + b') = s.d.mem (base + b') := by
    intro b'
    rcases E.mem (base + b') with h | ⟨data, h, _⟩ | ⟨_, i, r', q, os, h, _⟩
    · exact h
    · cases h
    · cases h
  have hq : d'.reqs r = some ⟨bid.file, false, bid.offset, L.raw, base + b⟩ := by
    simp only [Store.step, blockAt] at hs
    obtain ⟨q', _, e⟩ := Store.queue_some hs
    rw [e]; simp [Store.upd]
  have hnotc : ∀ i, r ∉ (s.d.qs i).cancelled := by
    intro i hc
    have hord := Queue.reach_ord (J.que i)
    obtain ⟨⟨y, w⟩, g1, g2⟩ := List.mem_map.1 (hord.ca r hc)
    simp only at g2; subst g2
    obtain ⟨q2, g3, _⟩ := J.sub _ _ _ g1
    rw [hfr] at g3; cases g3
  have hnots : ∀ i, r ∉ (s.d.qs i).served := by
    intro i hc
    obtain ⟨⟨y, w⟩, g1, g2⟩ := List.mem_map.1 (J.served i r hc)
    simp only at g2; subst g2
    obtain ⟨q2, g3, _⟩ := J.sub _ _ _ g1
    rw [hfr] at g3; cases g3
  have hpend : Store.Pending qid d' r := by
    refine ⟨_, hq, ?_, ?_⟩
    · intro hc
      rcases E.srv' _ _ hc with h | ⟨os, h, _⟩
      · exact hnots _ h
      · cases h
    · intro hc
      rcases E.can' _ _ hc with h | h
      · exact hnotc _ h
      · cases h
  refine ⟨.next _ I.life ha ho hs, ?_, I.reach, I.alen, I.asub, I.new, ?_, ?_, ?_, ?_, ?_, ?_, hval, ?_⟩
  · intro b' hb'
    rcases E.live _ (I.live b' hb') with h | h
    · exact h
    · cases h
  · intro m v hv
    rcases I.good m v hv with h | ⟨b', st, r', h1, h2, h3⟩
    · exact .inl h
    · refine .inr ⟨b', st, r', h1, ?_, E.fail' r' h3⟩
      have : b' ≠ b := by intro e; subst e; rw [hrb] at h2; cases h2
      simp [Prefetch.upd, this, h2]
  · intro r' q hp hq' h1 h2
    rcases E.pending hq' hp with ⟨h3, h4⟩ | ⟨w, b', buf, h3, h4, h5⟩
    · obtain ⟨g1, b', g2, g3⟩ := I.own r' q h4 h3 h1 h2
      have : b' ≠ b := by intro e; subst e; rw [hrb] at g3; cases g3
      exact ⟨g1, b', g2, by simp [Prefetch.upd, this, g3]⟩
    · injection h3 with g0 g1 g2 g3
      subst g0; subst g1; subst g3
      rw [h5]
      exact ⟨rfl, b, rfl, by simp [Prefetch.upd]⟩
  · intro b' hb'
    obtain ⟨h1, h2, h3⟩ := I.todo b' (by rw [ht]; simp [show b' ∈ rest from hb'])
    have : b' ≠ b := by
      intro e; subst e
      have := I.nd
      rw [ht] at this
      exact (List.nodup_cons.1 this).1 hb'
    exact ⟨h1, by simp [Prefetch.upd, this, h2], h3⟩
  · have := I.nd
    rw [ht] at this
    exact (List.nodup_cons.1 this).2
  · intro b' m st h1 h2
    obtain ⟨r', h3, h4⟩ := I.srv b' m st h1 h2
    have : b' ≠ b := by intro e; subst e; rw [hrb] at h3; cases h3
    obtain ⟨bid', _, h6, _⟩ := I.rq b' m st r' h1 h3
    exact ⟨r', by simp [Prefetch.upd, this, h3], E.finished h6 h4⟩
  · intro b' m st r' h1 h2
    by_cases e : b' = b
    · subst e
      simp only [Prefetch.upd, if_true, Option.some.injEq] at h2
      subst h2
      change s.i.p.reqs b' = some (m, st) at h1
      rw [hn] at h1
      injection h1 with h1; injection h1 with h1 h1'
      subst h1
      refine ⟨bid, hbid, hq, ?_, ?_, fun h => absurd hpend h⟩
      · intro hc
        rcases E.can' _ _ hc with h | h
        · exact hnotc _ h
        · cases h
      · intro _
        obtain ⟨e, e1, e2, e3, e4⟩ := hval n bid hbid
        refine ⟨e, ?_, e3, e2, e4⟩
        rw [← e1]
        congr 1
        simp [Store.Hist.next, Store.upd]
        rfl
    · simp only [Prefetch.upd, e, if_false] at h2
      obtain ⟨bid', h3, h4, h5, h6, h7⟩ := I.rq b' m st r' h1 h2
      refine ⟨bid', h3, E.req _ _ h4, ?_, ?_, ?_⟩
      · intro hc
        rcases E.can' _ _ hc with h | h
        · exact h5 h
        · cases h
      · intro hp
        have hp0 : Store.Pending qid s.d r' := by
          by_cases h : Store.Pending qid s.d r'
          · exact h
          · exact absurd hp (E.finished h4 h)
        obtain ⟨e, e1, e2, e3, e4⟩ := h6 hp0
        obtain ⟨q, hq, _⟩ := (J.rd r' _ hp0 h4 rfl).1.req e (List.mem_of_find?_eq_some e1)
        refine ⟨e, ?_, ?_, E.finished hq e3, e4⟩
        · rw [seen_keep h4 ha, ← e1]
          refine last_congr ?_
          intro e' _
          refine ⟨?_, fun h => E.can _ _ h⟩
          intro h
          rcases E.can' _ _ h with h | h
          · exact h
          · cases h
        · intro hc
          rcases E.fail _ hc with h | ⟨h, _⟩
          · exact e2 h
          · exact e3 h
      · intro hnp hnf
        show L.dec (d'.mem (base + b')) = _
        rw [hmem]
        refine h7 ?_ (fun h => hnf (E.fail' _ h))
        intro hp
        refine hnp ?_
        obtain ⟨q0, g1, g2, g3⟩ := hp
        refine ⟨q0, E.req _ _ g1, ?_, ?_⟩
        · intro hc
          rcases E.srv' _ _ hc with h | ⟨os, h, _⟩
          · exact g2 h
          · cases h
        · intro hc
          rcases E.can' _ _ hc with h | h
          · exact g3 h
          · cases h
  · intro b' hb'
    show (d'.mem (base + b')).length = _
    rw [hmem]; exact I.mem b' hb'

/-- Data arrive. -/
theorem II.copy (I : II k qid cfgs rev L c base val s h arr) (ok : IOk L c val) {b : Nat} {i : Stream.ISt α} (hsv : s.served qid b = true)
    (hs : Stream.iStep rev L.size (c.on (fun _ => L.dec (s.d.mem (base + b)))) s.i (.copy b) = .ok i) :
    i.p.submitted = s.i.p.submitted ∧ ∃ arr', II k qid cfgs rev L c base val { s with i := i } h arr' := by
  have P := I.pinv ok
  obtain ⟨r, hr, hnp⟩ : ∃ r, s.rid b = some r ∧ ¬ Store.Pending qid s.d r := by
    unfold ISys.served at hsv
    split at hsv
    · cases hsv
    · rename_i r hr
      split at hsv
      · cases hsv
      · rename_i q hq
        refine ⟨r, hr, ?_⟩
        rintro ⟨q2, p1, p2, _⟩
        rw [hq] at p1; injection p1 with p1; subst p1
        exact p2 (by simpa using hsv)
  obtain ⟨n, hn, e⟩ : ∃ n, s.i.p.reqs b = some (n, .issued) ∧
      i = { s.i with p := { s.i.p with bufs := Prefetch.upd s.i.p.bufs b (some (L.dec (s.d.mem (base + b)))), reqs := Prefetch.upd s.i.p.reqs b (some (n, .copied)) } } := by
    simp only [Stream.iStep, Prefetch.step] at hs
    split at hs
    · rename_i n hn
      simp only [Stream.lift, Stream.Res.ok.injEq] at hs
      exact ⟨n, hn, hs.symm⟩
    · cases hs
  obtain ⟨bid, h1, h2, h3, h4, h5⟩ := I.rq b n _ r hn hr
  have hb : b < c.nread := (P.req b n _ hn).2.2.1
  have harr := I.new b n hn
  have hsub : i.p.submitted = s.i.p.submitted := by rw [e]
  have hreqs : i.p.reqs = Prefetch.upd s.i.p.reqs b (some (n, .copied)) := by rw [e]
  have hbwd : ∀ b' n' st, i.p.reqs b' = some (n', st) → (b' = b ∧ n' = n ∧ st = .copied) ∨ (b' ≠ b ∧ s.i.p.reqs b' = some (n', st)) := by
    intro b' n' st h
    rw [hreqs] at h
    by_cases e : b' = b
    · subst e
      simp only [Prefetch.upd, if_true, Option.some.injEq, Prod.mk.injEq] at h
      exact .inl ⟨rfl, h.1.symm, h.2.symm⟩
    · simp only [Prefetch.upd, e, if_false] at h
      exact .inr ⟨e, h⟩
  have hfwd : ∀ b' n' st, s.i.p.reqs b' = some (n', st) → ∃ st', i.p.reqs b' = some (n', st') := by
    intro b' n' st h
    rw [hreqs]
    by_cases e : b' = b
    · subst e
      rw [hn] at h; injection h with h; injection h with h _; subst h
      exact ⟨.copied, by simp [Prefetch.upd]⟩
    · exact ⟨st, by simp [Prefetch.upd, e, h]⟩
  refine ⟨hsub, Prefetch.upd arr n (some (L.dec (s.d.mem (base + b)))), I.life, I.live, ?_, ?_, ?_, ?_, ?_, I.own, ?_, I.nd, ?_, ?_, I.val, I.mem⟩
  · intro disk hd
    have hn' : disk n = L.dec (s.d.mem (base + b)) := hd n _ (by simp [Prefetch.upd])
    refine .next (.copy b) (I.reach disk ?_) (fun e => by cases e) ?_
    · intro m v hv
      refine hd m v ?_
      have : m ≠ n := by intro e; subst e; rw [harr] at hv; cases hv
      simp [Prefetch.upd, this, hv]
    · simp only [Stream.iStep, Prefetch.step, hn, Stream.lift]
      rw [e, ← hn']
      rfl
  · intro m v hv
    simp only [Prefetch.upd] at hv
    split at hv
    · injection hv with hv; subst hv
      exact ok.lay.dec _ (I.mem b hb)
    · exact I.alen m v hv
  · intro m v hv
    show m ∈ i.p.submitted
    rw [hsub]
    simp only [Prefetch.upd] at hv
    split at hv
    · rename_i em; subst em; exact (P.req b m _ hn).1
    · exact I.asub m v hv
  · intro b' m hb'
    rcases hbwd b' m _ hb' with ⟨_, _, h⟩ | ⟨hne, h⟩
    · cases h
    · have : m ≠ n := by
        intro e; subst e
        have g1 := (P.req b m _ hn).2.1
        have g2 := (P.req b' m _ h).2.1
        rw [g1] at g2; injection g2 with g2
        exact hne g2.symm
      simp only [Prefetch.upd, this, if_false]
      exact I.new b' m h
  · intro m v hv
    simp only [Prefetch.upd] at hv
    split at hv
    · rename_i em
      subst em
      injection hv with hv
      subst hv
      by_cases hf : r ∈ s.d.failed
      · exact .inr ⟨b, .copied, r, by show i.p.reqs b = _; rw [hreqs]; simp [Prefetch.upd], hr, hf⟩
      · exact .inl (h5 hnp hf)
    · rcases I.good m v hv with h | ⟨b', st, r', g1, g2, g3⟩
      · exact .inl h
      · obtain ⟨st', g4⟩ := hfwd b' m st g1
        exact .inr ⟨b', st', r', g4, g2, g3⟩
  · intro b' hb'
    obtain ⟨g1, g2, m, g3⟩ := I.todo b' hb'
    have : b' ≠ b := by intro e; subst e; rw [hr] at g2; cases g2
    exact ⟨g1, g2, m, by show i.p.reqs b' = _; rw [hreqs]; simp [Prefetch.upd, this, g3]⟩
  · intro b' m st g1 g2
    rcases hbwd b' m st g1 with ⟨rfl, _, _⟩ | ⟨_, g3⟩
    · exact ⟨r, hr, hnp⟩
    · exact I.srv b' m st g3 g2
  · intro b' m st r' g1 g2
    rcases hbwd b' m st g1 with ⟨rfl, rfl, _⟩ | ⟨_, g3⟩
    · exact I.rq b' m _ r' hn g2
    · exact I.rq b' m st r' g3 g2

/-- `block_consumed`. -/
theorem II.consume (I : II k qid cfgs rev L c base val s h arr) (ok : IOk L c val) {i : Stream.ISt α} (ht : s.todo = [])
    (hb : s.bad s.i.blk = false) (hs : Stream.iStep rev L.size (c.on (fun _ => [])) s.i .consume = .ok i) :
    (i.p.submitted = s.i.p.submitted ∧ II k qid cfgs rev L c base val { s with i := i } h arr) ∨
    (s.i.p.submitted.length < i.p.submitted.length ∧
      II k qid cfgs rev L c base val { s with i := i, todo := [s.i.blk], rid := Prefetch.upd s.rid s.i.blk none } h arr) := by
  have P := I.pinv ok
  have S := I.iinv ok
  obtain ⟨hpc, hrd, hcase⟩ := consume_cases hs
  have hreach : ∀ disk, (∀ n v, arr n = some v → disk n = v) → Stream.IReach rev L.size (c.on disk) false i := by
    intro disk hd
    exact .next .consume (I.reach disk hd) (fun e => by cases e) (by rw [iStep_disk disk (fun _ => []) s.i (by intro b e; cases e)]; exact hs)
  obtain ⟨n0, hn0⟩ : ∃ n0, s.i.p.reqs s.i.blk = some (n0, .ready) := by
    cases S.shape with
    | idle _ a1 => rw [hpc] at a1; cases a1
    | waiting a1 => rw [hpc] at a1; cases a1
    | finished a1 => rw [hpc] at a1; cases a1
    | consuming k' a1 a3 a4 =>
      obtain ⟨_, st, _, h2⟩ := P.held k' s.i.blk (by rw [a4]; simp)
      rw [hrd _ _ h2] at h2
      exact ⟨k', h2⟩
  have hblk : s.i.blk < c.nread := (P.req _ _ _ hn0).2.2.1
  obtain ⟨r0, hr0, hnp0⟩ := I.srv _ _ _ hn0 (by simp)
  have hnf0 : r0 ∉ s.d.failed := by
    unfold ISys.bad at hb
    rw [hr0] at hb
    simpa using hb
  have hgood : ∀ (x : Option (Nat × Prefetch.Stage)) (rid : Nat → Option Nat), (∀ b, b ≠ s.i.blk → rid b = s.rid b) → i.p.reqs = Prefetch.upd s.i.p.reqs s.i.blk x →
      ∀ n v, arr n = some v → v = val n ∨ ∃ b st r, i.p.reqs b = some (n, st) ∧ rid b = some r ∧ r ∈ s.d.failed := by
    intro x rid hrid hx n v hv
    rcases I.good n v hv with h | ⟨b, st, r, g1, g2, g3⟩
    · exact .inl h
    · have hne : b ≠ s.i.blk := by
        intro e; subst e
        rw [hr0] at g2; injection g2 with g2; subst g2
        exact hnf0 g3
      exact .inr ⟨b, st, r, by rw [hx]; simp [Prefetch.upd, hne, g1], by rw [hrid b hne]; exact g2, g3⟩
  rcases hcase with ⟨h1, h2⟩ | ⟨n, h0, h1, h2⟩
  · refine .inl ⟨h1, I.life, I.live, hreach, I.alen, ?_, ?_, hgood _ _ (fun _ _ => rfl) h2, I.own, ?_, I.nd, ?_, ?_, I.val, I.mem⟩
    · intro m v hv
      show m ∈ i.p.submitted
      rw [h1]; exact I.asub m v hv
    · intro b m hb'
      change i.p.reqs b = _ at hb'
      rw [h2] at hb'
      simp only [Prefetch.upd] at hb'
      split at hb'
      · cases hb'
      · exact I.new b m hb'
    · intro b hb'
      change b ∈ s.todo at hb'
      rw [ht] at hb'; cases hb'
    · intro b m st g1 g2
      change i.p.reqs b = _ at g1
      rw [h2] at g1
      simp only [Prefetch.upd] at g1
      split at g1
      · cases g1
      · exact I.srv b m st g1 g2
    · intro b m st r g1 g2
      change i.p.reqs b = _ at g1
      rw [h2] at g1
      simp only [Prefetch.upd] at g1
      split at g1
      · cases g1
      · exact I.rq b m st r g1 g2
  · have hns : n ∉ s.i.p.submitted := by
      rw [P.sub]
      intro hm
      have hnd : c.seq.Nodup := ok.ord.nodup_iff.2 List.nodup_range
      obtain ⟨j, hj⟩ := List.getElem?_of_mem hm
      rw [List.getElem?_take] at hj
      split at hj
      · rename_i hlt
        have g1 := List.getElem?_eq_some_iff.1 hj
        have g2 := List.getElem?_eq_some_iff.1 h0
        have := (List.getElem_inj (h₀ := g1.1) (h₁ := g2.1) hnd).1 (g1.2.trans g2.2.symm)
        omega
      · cases hj
    refine .inr ⟨by rw [h1]; simp, I.life, I.live, hreach, I.alen, ?_, ?_, hgood _ _ (fun b hne => by simp [Prefetch.upd, hne]) h2, ?_, ?_, by simp, ?_, ?_, I.val, I.mem⟩
    · intro m v hv
      show m ∈ i.p.submitted
      rw [h1]; simp [I.asub m v hv]
    · intro b m hb'
      change i.p.reqs b = _ at hb'
      rw [h2] at hb'
      simp only [Prefetch.upd] at hb'
      split at hb'
      · injection hb' with hb'; injection hb' with hb' _; subst hb'
        cases hv : arr n with
        | none => rfl
        | some v => exact absurd (I.asub n v hv) hns
      · exact I.new b m hb'
    · intro r q hp hq g1 g2
      obtain ⟨g3, b, g4, g5⟩ := I.own r q hp hq g1 g2
      have hne : b ≠ s.i.blk := by
        intro e; subst e
        rw [hr0] at g5; injection g5 with g5; subst g5
        exact hnp0 hp
      exact ⟨g3, b, g4, by simp [Prefetch.upd, hne, g5]⟩
    · intro b hb'
      simp only [List.mem_singleton] at hb'
      subst hb'
      exact ⟨hblk, by simp [Prefetch.upd], n, by show i.p.reqs _ = _; rw [h2]; simp [Prefetch.upd]⟩
    · intro b m st g1 g2
      change i.p.reqs b = _ at g1
      rw [h2] at g1
      simp only [Prefetch.upd] at g1
      split at g1
      · injection g1 with g1; injection g1 with _ g1; exact absurd g1.symm g2
      · rename_i hne
        obtain ⟨r, g3, g4⟩ := I.srv b m st g1 g2
        exact ⟨r, by simp [Prefetch.upd, hne, g3], g4⟩
    · intro b m st r g1 g2
      change i.p.reqs b = _ at g1
      rw [h2] at g1
      simp only [Prefetch.upd] at g1 g2
      split at g1
      · rename_i e
        rw [if_pos e] at g2; cases g2
      · rename_i hne
        rw [if_neg hne] at g2
        exact I.rq b m st r g1 g2

end

theorem irun_inv {rev : Bool} {L : Layout α} {c : ICfg} {base : Nat} {val : Nat → List α} {d0 : Store.St} {h0 : Store.Hist} (ok : IOk L c val)
    (hval : ∀ n bid, c.bids[n]? = some bid → Last L d0 h0 qid bid (val n)) {s : ISys α} {h : Store.Hist}
    (hr : IRun k qid cfgs rev L c base d0 h0 s h) : ∃ arr, II k qid cfgs rev L c base val s h arr := by
  induction hr with
  | @start s blk h1 h2 h3 h4 h5 =>
    unfold ISys.init at h5
    split at h5
    · rename_i i hi
      injection h5 with h5
      subst h5
      have hreach : ∀ disk, Stream.IReach rev L.size (c.on disk) false i := fun disk => .start blk (by rw [iInit_disk disk (fun _ => [])]; exact hi)
      have P := Prefetch.reach_inv (ok.order val).good (Stream.ireach_inv ok.lay.pos (ok.order val) ok.len (hreach val)).reach
      obtain ⟨g1, g2⟩ : (∀ b n st, i.p.reqs b = some (n, st) → st = .issued) ∧ ∀ b, b < c.nread → ∃ n, i.p.reqs b = some (n, .issued) := by
        unfold Stream.iInit at hi
        split at hi
        · rename_i p hp
          have hq : (∀ b n st, p.reqs b = some (n, st) → st = .issued) ∧ ∀ b, b < c.nread → ∃ n, p.reqs b = some (n, .issued) := by
            unfold Prefetch.init at hp
            split at hp
            · have := initLoop_reqs _ _ hp (by simp) (by simp)
              rw [Nat.zero_add] at this
              exact this
            · cases hp
          split at hi
          · rename_i p' hp'
            injection hi with hi
            subst hi
            simp only [Prefetch.step] at hp'
            split at hp'
            · cases hp'
            · split at hp'
              · injection hp' with hp'; subst hp'; exact hq
              · cases hp'
          · cases hi
          · cases hi
          · cases hi
        · cases hi
        · cases hi
        · cases hi
      refine ⟨fun _ => none, h1, h2, fun disk _ => hreach disk, by simp, by simp, fun _ _ _ => rfl, by simp, ?_, ?_, List.nodup_range, ?_, ?_, hval, h4⟩
      · intro r q hp hq a1 a2
        exact absurd ⟨a1, a2⟩ (h3 r q hp hq)
      · intro b hb
        exact ⟨List.mem_range.1 hb, rfl, g2 b (List.mem_range.1 hb)⟩
      · intro b n st a1 a2
        exact absurd (g1 b n st a1) a2
      · intro b n st r a1 a2
        cases a2
    · cases h5
  | @next s s' h ev _ hfr hfair hst I =>
    obtain ⟨arr, I⟩ := I
    have plain : ∀ {op : Stream.IOp} {x : Out (ISys α)}, (op = .advance ∨ op = .wake ∨ (∃ b, op = .signal b) ∨ ∃ b, op = .finish b) →
        s.stream rev L c (fun _ => []) op = .ok s' → ∃ arr, II k qid cfgs rev L c base val s' h arr := by
      intro op x ho h
      unfold ISys.stream at h
      split at h
      · rename_i i hi
        have S := step_same ho hi
        rw [S.sub, if_neg (Nat.lt_irrefl _)] at h
        injection h with h
        subst h
        exact ⟨arr, I.same ho hi⟩
      · cases h
    cases ev with
    | advance =>
      simp only [ISys.step] at hst
      split at hst
      · exact plain (x := .no) (.inl rfl) hst
      · cases hst
    | wake =>
      simp only [ISys.step] at hst
      split at hst
      · exact plain (x := .no) (.inr (.inl rfl)) hst
      · cases hst
    | signal b => exact plain (x := .no) (.inr (.inr (.inl ⟨b, rfl⟩))) hst
    | finish b => exact plain (x := .no) (.inr (.inr (.inr ⟨b, rfl⟩))) hst
    | consume =>
      simp only [ISys.step] at hst
      split at hst
      · rename_i htodo
        split at hst
        · rename_i s1 h1
          split at hst
          · cases hst
          · rename_i hbad
            injection hst with hst
            subst hst
            unfold ISys.stream at h1
            split at h1
            · rename_i i hi
              rcases I.consume ok (by simpa using htodo) (by simpa using hbad) hi with ⟨e, I'⟩ | ⟨e, I'⟩
              · rw [e, if_neg (Nat.lt_irrefl _)] at h1
                injection h1 with h1; subst h1
                exact ⟨arr, I'⟩
              · rw [if_pos e] at h1
                injection h1 with h1; subst h1
                exact ⟨arr, I'⟩
            · cases h1
        · rename_i hno
          exact absurd hst (hno _)
      · cases hst
    | copy b =>
      simp only [ISys.step] at hst
      split at hst
      · rename_i hsv
        unfold ISys.stream at hst
        split at hst
        · rename_i i hi
          obtain ⟨e, arr', I'⟩ := I.copy ok hsv hi
          rw [e, if_neg (Nat.lt_irrefl _)] at hst
          injection hst with hst; subst hst
          exact ⟨arr', I'⟩
        · cases hst
      · cases hst
    | env op =>
      simp only [ISys.step] at hst
      split at hst
      · cases hst
      · rename_i d hd
        injection hst with hst
        subst hst
        exact ⟨arr, I.env ok hfair.1 hfair.2.1 hfair.2.2 hd⟩
    | issue r =>
      simp only [ISys.step] at hst
      split at hst
      · cases hst
      · rename_i b rest ht
        split at hst
        · cases hst
        · rename_i bid hbid
          split at hst
          · cases hst
          · rename_i d hd
            injection hst with hst
            subst hst
            have hst' : s.store L c base (.issue r) = some (.io r false bid (base + b)) := by
              simp only [ISys.store, ht, hbid, Option.map_some]
            rw [hst']
            unfold ISys.target at hbid
            split at hbid
            · rename_i n hn
              obtain ⟨bid', hb', e⟩ := Option.map_eq_some_iff.1 hbid
              subst e
              exact ⟨arr, I.issue ht hn hb' hfr hd⟩
            · cases hbid

end Foxxll.E2E
