import Verif.Proofs.PoolStorePool
import Verif.Proofs.StreamStoreEnv
/-
The pools on top of the store behave like the pools over disks that keep the order of accesses.
-/
namespace Foxxll.PoolStore
open Foxxll

/-- What is known inside of `write` and `invalidate`. -/
def ActOk (v : Pool.St V) : Act → Prop
  | .idle => True
  | .drop blk bid todo canc => Pool.Legal v (.write blk bid [] false) ∧ ∀ i, i ∈ todo ∨ i ∈ canc → ∃ e ∈ v.wbusy, e.bid = some bid ∧ e.req = i
  | .inval i => ∃ b rh e, v.pc = .inval b rh ∧ Pool.findP v b = some e ∧ e.rd = true ∧ e.req = i

/-- The request is being canceled by `write`. -/
def Dropping (v : Pool.St V) (a : Act) (i : Nat) : Prop :=
  ∃ blk bid todo canc e, a = .drop blk bid todo canc ∧ i ∈ canc ∧ e ∈ v.wbusy ∧ e.bid = some bid ∧ e.req = i

/-- Requests of other clients. -/
def Alien (own : List Mgr.Bid) (loc : Nat → Nat) (q : Store.Req) : Prop :=
  (∀ j, q.buf ≠ loc j) ∧ ∀ b ∈ own, b.storage = .managed q.disk → q.off + q.size ≤ b.off ∨ b.off + b.size ≤ q.off

structure Sim (k : Queue.Kind) (qid : Nat → Nat) (cfgs : List (Nat × Bool)) (own : List Mgr.Bid) (loc : Nat → Nat) (raw : Nat) (s : Sys) (h : Store.Hist) :
    Prop where
  life : Store.Life k qid cfgs (Store.Orderly k) s.d h
  liv : ∀ b ∈ own, b ∈ s.d.m.live ∧ b.size = raw
  nd : own.Nodup
  inj : ∀ i j, loc i = loc j → i = j
  len : ∀ j, (s.d.mem (loc j)).length = raw
  reach : Pool.Reach true (s.view qid own loc)
  new : Newest (s.view qid own loc)
  rid : ∀ i j, i < s.p.nextReq → j < s.p.nextReq → s.rid i = s.rid j → i = j
  has : ∀ i, i < s.p.nextReq → s.d.reqs (s.rid i) ≠ none
  req : ∀ x ∈ (s.view qid own loc).q, ∃ b dk, own[x.bid]? = some b ∧ b.storage = .managed dk ∧
    s.d.reqs (s.rid x.id) = some ⟨dk, !x.rd, b.off, b.size, loc x.blk⟩
  ord : (s.view qid own loc).q.Pairwise (fun x y => x.bid = y.bid → ∀ q, s.d.reqs (s.rid y.id) = some q →
    Store.Aft (s.d.qs (qid q.disk)) (s.rid x.id) (s.rid y.id))
  can : ∀ x ∈ (s.view qid own loc).q, ∀ q, s.d.reqs (s.rid x.id) = some q → s.rid x.id ∈ (s.d.qs (qid q.disk)).cancelled →
    Dropping (s.view qid own loc) s.act x.id
  pen : ∀ r q, Store.Pending qid s.d r → s.d.reqs r = some q → (∃ x ∈ (s.view qid own loc).q, s.rid x.id = r) ∨ Alien own loc q
  act : ActOk (s.view qid own loc) s.act
  gone : ∀ blk bid todo canc, s.act = .drop blk bid todo canc → ∀ i ∈ canc, ¬ Store.Pending qid s.d (s.rid i)

variable {k : Queue.Kind} {qid : Nat → Nat} {cfgs : List (Nat × Bool)} {own : List Mgr.Bid} {loc : Nat → Nat} {raw : Nat}

theorem nodup_idx {l : List Mgr.Bid} (h : l.Nodup) {i j : Nat} (hi : i < l.length) (hj : j < l.length) (e : l[i] = l[j]) : i = j := by
  rw [List.nodup_iff_pairwise_ne, List.pairwise_iff_getElem] at h
  rcases Nat.lt_trichotomy i j with hl | hl | hl
  · exact absurd e (h i j hi hj hl)
  · exact hl
  · exact absurd e.symm (h j i hj hi hl)

theorem served_iff {s : Sys} {i : Nat} {q : Store.Req} (hq : s.d.reqs (s.rid i) = some q) :
    s.served qid i = true ↔ s.rid i ∈ (s.d.qs (qid q.disk)).served := by
  unfold Sys.served
  rw [hq]
  simp

theorem mem_view {s : Sys} {x : Pool.Req} : x ∈ (s.view qid own loc).q ↔ x ∈ s.p.q ∧ s.served qid x.id = false := by
  simp [Sys.view, List.mem_filter]

/-- The ids of the requests under way are smaller than the next one. -/
theorem Sim.idlt {s : Sys} {h : Store.Hist} (I : Sim k qid cfgs own loc raw s h) : ∀ x ∈ (s.view qid own loc).q, x.id < s.p.nextReq := by
  intro x hx
  exact (Pool.reach_inv I.reach).ci.idlt x hx

theorem Sim.ids {s : Sys} {h : Store.Hist} (I : Sim k qid cfgs own loc raw s h) : (s.view qid own loc).q.Pairwise (fun x y => x.id < y.id) :=
  (Pool.reach_inv I.reach).ci.ids

/-- Different requests of the pools are different requests of the store. -/
theorem Sim.same {s : Sys} {h : Store.Hist} (I : Sim k qid cfgs own loc raw s h) {x y : Pool.Req} (hx : x ∈ (s.view qid own loc).q)
    (hy : y ∈ (s.view qid own loc).q) (he : s.rid x.id = s.rid y.id) : x = y :=
  Pool.pairwise_id_inj I.ids hx hy (I.rid _ _ (I.idlt x hx) (I.idlt y hy) he)

/-- A request of the pools that is neither served nor being canceled is pending. -/
theorem Sim.pending {s : Sys} {h : Store.Hist} (I : Sim k qid cfgs own loc raw s h) {x : Pool.Req} (hx : x ∈ (s.view qid own loc).q)
    (hd : ¬ Dropping (s.view qid own loc) s.act x.id) : Store.Pending qid s.d (s.rid x.id) := by
  obtain ⟨b, dk, h1, h2, h3⟩ := I.req x hx
  refine ⟨_, h3, ?_, fun hc => hd (I.can x hx _ h3 hc)⟩
  intro hs
  have := (mem_view.1 hx).2
  rw [(served_iff h3).2 hs] at this; cases this

/-- What has been canceled stays finished. -/
theorem Sim.gone' {s : Sys} {h : Store.Hist} (I : Sim k qid cfgs own loc raw s h) {op : Store.Op} {d' : Store.St} (E : Store.Eff qid s.d d' op)
    {blk bid : Nat} {todo canc : List Nat} (ha : s.act = .drop blk bid todo canc) : ∀ i ∈ canc, ¬ Store.Pending qid d' (s.rid i) := by
  intro i hi
  have hact := I.act
  rw [ha] at hact
  obtain ⟨e, h1, _, h3⟩ := hact.2 i (.inr hi)
  have hlt : i < s.p.nextReq := by
    have := (Pool.reach_inv I.reach).ci.reqlt _ (Pool.mem_ents_w h1)
    rw [← h3]; exact this
  cases hq : s.d.reqs (s.rid i) with
  | none => exact absurd hq (I.has i hlt)
  | some q => exact E.finished hq (I.gone _ _ _ _ ha i hi)

/-- How the queues' lists of requests change. -/
theorem queue_sub {d d' : Store.St} {i : Nat} {op : Queue.Op} (hn : ∀ r w, op ≠ .push r w) (hop : op = .signal ∨ op = .cancelTake ∨ op = .work ∨ ∃ r w, op = .cancel r w)
    (h : d.queue k i op = some d') : ∀ j, (d'.qs j).sub = (d.qs j).sub := by
  obtain ⟨q, h1, h2⟩ := Store.queue_some h
  subst h2
  refine Store.upd_cases (P := fun j (a : Queue.St) => a.sub = (d.qs j).sub) ?_ (fun _ => rfl)
  rcases hop with rfl | rfl | rfl | ⟨r, w, rfl⟩
  · exact (Store.signal_quiet h1).sub
  · exact (Store.cancelTake_quiet h1).sub
  · by_cases hw : ∃ x, (d.qs i).wpc = .serving x
    · obtain ⟨x, hw⟩ := hw
      rw [Store.work_serving hw h1]
    · exact (Store.work_quiet (fun r hr => hw ⟨r, hr⟩) h1).sub
  · exact (Store.cancel_quiet h1).sub

theorem transfer_qs (d : Store.St) (i : Nat) (os : Nat → Files.Sys) : (d.transfer i os).qs = d.qs := by
  unfold Store.St.transfer
  split
  · unfold Store.St.serve
    split
    · rfl
    · split <;> split <;> rfl
  · rfl

theorem step_sub {d d' : Store.St} {op : Store.Op} (h : Store.step k qid d op = some d') : ∀ i, ∃ l, (d'.qs i).sub.map (·.1) = (d.qs i).sub.map (·.1) ++ l := by
  have same : (∀ j, (d'.qs j).sub = (d.qs j).sub) → ∀ i, ∃ l, (d'.qs i).sub.map (·.1) = (d.qs i).sub.map (·.1) ++ l := by
    intro h i; exact ⟨[], by rw [h i]; simp⟩
  cases op with
  | mgr op => simp only [Store.step] at h; injection h with h; subst h; exact same (fun _ => rfl)
  | fill buf data => simp only [Store.step] at h; injection h with h; subst h; exact same (fun _ => rfl)
  | io r w b buf =>
    simp only [Store.step] at h
    split at h
    · obtain ⟨q, h1, h2⟩ := Store.queue_some h
      subst h2
      refine Store.upd_cases (P := fun j (a : Queue.St) => ∃ l, a.sub.map (·.1) = (d.qs j).sub.map (·.1) ++ l) ?_ (fun _ => ⟨[], by simp⟩)
      exact ⟨[r], by rw [(Store.push_some h1).1]; simp⟩
    · cases h
  | cancel r =>
    simp only [Store.step] at h
    split at h
    · exact same (queue_sub (fun _ _ h => by cases h) (.inr (.inr (.inr ⟨_, _, rfl⟩))) h)
    · cases h
  | run i op os =>
    cases op with
    | signal => exact same (queue_sub (fun _ _ h => by cases h) (.inl rfl) h)
    | cancelTake => exact same (queue_sub (fun _ _ h => by cases h) (.inr (.inl rfl)) h)
    | work =>
      simp only [Store.step] at h
      have := queue_sub (fun _ _ h => by cases h) (.inr (.inr (.inl rfl))) h
      refine same (fun j => ?_)
      rw [this j, transfer_qs]
    | _ => cases h

/-- A step of the store in which the pools make no request. -/
theorem Sim.move {s s' : Sys} {h h' : Store.Hist} (I : Sim k qid cfgs own loc raw s h) {op : Store.Op} (hrid : s'.rid = s.rid)
    (hn : s'.p.nextReq = s.p.nextReq) (E : Store.Eff qid s.d s'.d op) (hsub : ∀ i, ∃ l, (s'.d.qs i).sub.map (·.1) = (s.d.qs i).sub.map (·.1) ++ l)
    (hl : Store.Life k qid cfgs (Store.Orderly k) s'.d h') (hdel : ∀ b ∈ own, op ≠ .mgr (.delete b)) (hlen : ∀ j, (s'.d.mem (loc j)).length = raw)
    (hR : Pool.Reach true (s'.view qid own loc)) (hX : Newest (s'.view qid own loc)) (f : Pool.Req → Bool)
    (hq : (s'.view qid own loc).q = (s.view qid own loc).q.filter f)
    (hdead : ∀ x ∈ (s.view qid own loc).q, f x = false → ¬ Store.Pending qid s'.d (s.rid x.id))
    (hnew : ∀ r w b buf, op = .io r w b buf → b ∈ s'.d.m.live ∧ b ∉ own ∧ ∀ j, buf ≠ loc j)
    (hcan : ∀ x ∈ (s'.view qid own loc).q, ∀ q, s'.d.reqs (s.rid x.id) = some q → s.rid x.id ∈ (s'.d.qs (qid q.disk)).cancelled →
      Dropping (s'.view qid own loc) s'.act x.id)
    (hact : ActOk (s'.view qid own loc) s'.act)
    (hgone : ∀ blk bid todo canc, s'.act = .drop blk bid todo canc → ∀ i ∈ canc, ¬ Store.Pending qid s'.d (s.rid i)) :
    Sim k qid cfgs own loc raw s' h' := by
  have hmem : ∀ x ∈ (s'.view qid own loc).q, x ∈ (s.view qid own loc).q := by
    intro x hx; rw [hq] at hx; exact (List.mem_filter.1 hx).1
  refine ⟨hl, ?_, I.nd, I.inj, hlen, hR, hX, ?_, ?_, ?_, ?_, ?_, ?_, hact, by rw [hrid]; exact hgone⟩
  · intro b hb
    refine ⟨?_, (I.liv b hb).2⟩
    rcases E.live b (I.liv b hb).1 with h | h
    · exact h
    · exact absurd h (hdel b hb)
  · rw [hrid, hn]; exact I.rid
  · rw [hrid, hn]
    intro i hi hc
    cases hq' : s.d.reqs (s.rid i) with
    | none => exact I.has i hi hq'
    | some q => rw [E.req _ _ hq'] at hc; cases hc
  · intro x hx
    obtain ⟨b, dk, h1, h2, h3⟩ := I.req x (hmem x hx)
    exact ⟨b, dk, h1, h2, by rw [hrid]; exact E.req _ _ h3⟩
  · rw [hq, hrid]
    refine (I.ord.filter f).imp_of_mem ?_
    intro x y _ hy hxy hb q hq'
    obtain ⟨b, dk, h1, h2, h3⟩ := I.req y (List.mem_filter.1 hy).1
    have := E.req _ _ h3
    rw [hq'] at this; injection this with this; subst this
    obtain ⟨l, hl⟩ := hsub (qid dk)
    exact (hxy hb _ h3).mono hl
  · rw [hrid]; exact hcan
  · intro r q hp hq'
    rcases E.pending hq' hp with ⟨h1, h2⟩ | ⟨w, b, buf, h1, h2, h3⟩
    · rcases I.pen r q h2 h1 with ⟨x, hx, hxr⟩ | ha
      · refine .inl ⟨x, ?_, by rw [hrid]; exact hxr⟩
        rw [hq]
        refine List.mem_filter.2 ⟨hx, ?_⟩
        cases hf : f x with
        | true => rfl
        | false => exact absurd (by rw [hxr]; exact hp) (hdead x hx hf)
      · exact .inr ha
    · obtain ⟨g1, g2, g3⟩ := hnew r w b buf h1
      refine .inr ?_
      rw [h3]
      refine ⟨g3, ?_⟩
      intro c hc hcs
      have J := Store.life_inv hl
      have hcl : c ∈ s'.d.m.live := by
        rcases E.live c (I.liv c hc).1 with h | h
        · exact h
        · exact absurd h (hdel c hc)
      have hne : b ≠ c := fun e => g2 (e ▸ hc)
      have := Store.live_apart J.mgr g1 hcl hne (by rw [h2, hcs])
      obtain ⟨_, _, z1, _⟩ := Store.live_inside J.mgr g1
      obtain ⟨_, _, z2, _⟩ := Store.live_inside J.mgr hcl
      unfold Store.Apart at this
      simp only
      omega

/-- A call of the pools that submits nothing. -/
theorem Sim.call {s : Sys} {h : Store.Hist} (I : Sim k qid cfgs own loc raw s h) {p' : Pool.St V} {a : Act} (hi : s.act = .idle) (hR : Pool.Reach true p')
    (hX : Newest p') (hm : p'.mem = (s.view qid own loc).mem) (hd : p'.disk = (s.view qid own loc).disk) (hq : p'.q = (s.view qid own loc).q)
    (hn : p'.nextReq = s.p.nextReq) (ha : ActOk p' a) (hnd : ∀ blk bid todo canc, a ≠ .drop blk bid todo canc) : Sim k qid cfgs own loc raw { s with p := p', act := a } h := by
  have hv : Sys.view qid own loc { s with p := p', act := a } = p' := by
    unfold Sys.view
    have e : p'.q.filter (fun x => !Sys.served qid { s with p := p', act := a } x.id) = p'.q := by
      rw [List.filter_eq_self]
      intro x hx
      rw [hq] at hx
      have hx' : Sys.served qid { s with p := p', act := a } x.id = false := (mem_view.1 hx).2
      rw [hx']; rfl
    simp only [e]
    have h1 : (fun j => s.d.mem (loc j)) = p'.mem := by rw [hm]; rfl
    have h2 : content own s.d = p'.disk := by rw [hd]; rfl
    rw [h1, h2]
  refine ⟨I.life, I.liv, I.nd, I.inj, I.len, by rw [hv]; exact hR, by rw [hv]; exact hX, ?_, ?_, ?_, ?_, ?_, ?_, by rw [hv]; exact ha, fun _ _ _ _ e => absurd e (hnd _ _ _ _)⟩
  · intro i j h1 h2; exact I.rid i j (by rw [← hn]; exact h1) (by rw [← hn]; exact h2)
  · intro i h1; exact I.has i (by rw [← hn]; exact h1)
  · rw [hv, hq]; exact I.req
  · rw [hv, hq]; exact I.ord
  · rw [hv, hq]
    intro x hx q h1 h2
    obtain ⟨_, _, _, _, _, e, _⟩ := I.can x hx q h1 h2
    rw [hi] at e; cases e
  · rw [hv, hq]; exact I.pen

theorem io_pushed {d d' : Store.St} {r : Nat} {w : Bool} {b : Mgr.Bid} {buf : Nat} (hr : d.reqs r = none)
    (h : Store.step k qid d (.io r w b buf) = some d') : ∃ dk, b.storage = .managed dk ∧ Store.Pushed qid d d' r ⟨dk, w, b.off, b.size, buf⟩ := by
  simp only [Store.step] at h
  split at h
  · rename_i dk hd
    obtain ⟨q, h1, h2⟩ := Store.queue_some h
    obtain ⟨p1, p2, p3, p4⟩ := Store.push_some h1
    subst h2
    refine ⟨dk, hd, hr, Store.upd_same _ _ _, fun y hy => Store.upd_other _ _ hy, ?_, ?_, ?_, ?_, rfl, rfl, rfl, rfl⟩
    · show (Store.upd d.qs (qid dk) q (qid dk)).sub = _
      rw [Store.upd_same]; exact p1
    · intro i hi
      show (Store.upd d.qs (qid dk) q i).sub = _
      rw [Store.upd_other _ _ hi]
    · exact Store.upd_cases (P := fun j (a : Queue.St) => a.served = (d.qs j).served) p2 (fun _ => rfl)
    · exact Store.upd_cases (P := fun j (a : Queue.St) => a.cancelled = (d.qs j).cancelled) p3 (fun _ => rfl)
  · cases h

/-- A call of the pools that submits a request. -/
theorem Sim.push {s : Sys} {h : Store.Hist} (I : Sim k qid cfgs own loc raw s h) {p' : Pool.St V} {a : Act} {d' : Store.St} {x : Pool.Req} {b : Mgr.Bid} {r : Nat}
    (hR : Pool.Reach true p') (hX : Newest p') (hm : p'.mem = (s.view qid own loc).mem) (hd : p'.disk = (s.view qid own loc).disk)
    (f : Pool.Req → Bool) (hq : p'.q = (s.view qid own loc).q.filter f ++ [x]) (hid : x.id = s.p.nextReq) (hn : p'.nextReq = s.p.nextReq + 1)
    (hdead : ∀ y ∈ (s.view qid own loc).q, f y = false → ¬ Store.Pending qid s.d (s.rid y.id))
    (hgood : ∀ y ∈ (s.view qid own loc).q, f y = true → ¬ Dropping (s.view qid own loc) s.act y.id)
    (hcalm : k = .twoQ → x.rd = false → ∀ y ∈ (s.view qid own loc).q, y.bid = x.bid → y.rd = false)
    (hb : own[x.bid]? = some b) (hr : s.d.reqs r = none) (hs : Store.step k qid s.d (.io r (!x.rd) b (loc x.blk)) = some d') (ha : ActOk p' a)
    (hnd : ∀ blk bid todo canc, a ≠ .drop blk bid todo canc) :
    Sim k qid cfgs own loc raw { p := p', d := d', rid := Store.upd s.rid x.id r, act := a } (h.next s.d (.io r (!x.rd) b (loc x.blk))) := by
  obtain ⟨dk, hdk, hP⟩ := io_pushed hr hs
  have J := Store.life_inv I.life
  have hbo : b ∈ own := List.mem_of_getElem? hb
  have hxq : x ∈ p'.q := by rw [hq]; simp
  -- the block is not used by another request
  have hblk : ∀ y ∈ (s.view qid own loc).q, f y = true → y.blk ≠ x.blk := by
    intro y hy hf e
    have := blk_ne hR (x := y) (y := x) (by rw [hq]; exact List.mem_append_left _ (List.mem_filter.2 ⟨hy, hf⟩)) hxq e
    have hlt := I.idlt y hy
    rw [this, hid] at hlt
    omega
  have hal : Store.Allowed k qid s.d (.io r (!x.rd) b (loc x.blk)) := by
    refine ⟨hr, (I.liv b hbo).1, by rw [I.len, (I.liv b hbo).2], ?_, ?_⟩
    · intro r' q hp hq' hbuf
      rcases I.pen r' q hp hq' with ⟨y, hy, hyr⟩ | ha
      · exfalso
        obtain ⟨b2, dk2, _, _, g3⟩ := I.req y hy
        rw [hyr, hq'] at g3; injection g3 with g3; subst g3
        simp only at hbuf
        refine hblk y hy ?_ (I.inj _ _ hbuf)
        cases hf : f y with
        | true => rfl
        | false => exact absurd (by rw [hyr]; exact hp) (hdead y hy hf)
      · exact absurd hbuf (ha.1 _)
    · intro hw hk r' q hp hq' hqw hon
      rcases I.pen r' q hp hq' with ⟨y, hy, hyr⟩ | ha
      · obtain ⟨b2, dk2, g1, g2, g3⟩ := I.req y hy
        rw [hyr, hq'] at g3; injection g3 with g3; subst g3
        obtain ⟨o1, o2, o3⟩ := hon
        simp only at o1 o2 o3 hqw
        have hyb : y.bid = x.bid := by
          have hb2 : b2 ∈ own := List.mem_of_getElem? g1
          have e : b2 = b := by
            cases Decidable.em (b2 = b) with
            | inl e => exact e
            | inr hne =>
              have := Store.live_apart J.mgr (I.liv b2 hb2).1 (I.liv b hbo).1 hne (by rw [g2, o1])
              obtain ⟨_, _, z1, _⟩ := Store.live_inside J.mgr (I.liv b2 hb2).1
              unfold Store.Apart at this
              omega
          subst e
          obtain ⟨l1, e1⟩ := List.getElem?_eq_some_iff.1 g1
          obtain ⟨l2, e2⟩ := List.getElem?_eq_some_iff.1 hb
          exact nodup_idx I.nd l1 l2 (e1.trans e2.symm)
        have := hcalm hk (by simpa using hw) y hy hyb
        rw [this] at hqw; simp at hqw
      · obtain ⟨o1, o2, o3⟩ := hon
        obtain ⟨_, _, z1, _⟩ := Store.live_inside J.mgr (I.liv b hbo).1
        have := ha.2 b hbo o1
        omega
  have hlife : Store.Life k qid cfgs (Store.Orderly k) d' (h.next s.d (.io r (!x.rd) b (loc x.blk))) :=
    .next _ I.life hal (fun _ _ e => by cases e) hs
  have hold : ∀ i, i < s.p.nextReq → Store.upd s.rid x.id r i = s.rid i := by
    intro i hi
    exact Store.upd_other _ _ (by omega)
  have hnewr : Store.upd s.rid x.id r x.id = r := Store.upd_same _ _ _
  have hne : ∀ i, i < s.p.nextReq → s.rid i ≠ r := by
    intro i hi e
    exact I.has i hi (by rw [e]; exact hr)
  have hfresh := J.fresh hr
  have hmem : ∀ y ∈ p'.q, (y ∈ (s.view qid own loc).q ∧ f y = true) ∨ y = x := by
    intro y hy
    rw [hq] at hy
    rcases List.mem_append.1 hy with hy | hy
    · exact .inl (List.mem_filter.1 hy)
    · exact .inr (List.mem_singleton.1 hy)
  have hv : Sys.view qid own loc { p := p', d := d', rid := Store.upd s.rid x.id r, act := a } = p' := by
    unfold Sys.view
    have e : p'.q.filter (fun y => !Sys.served qid { p := p', d := d', rid := Store.upd s.rid x.id r, act := a } y.id) = p'.q := by
      rw [List.filter_eq_self]
      intro y hy
      rcases hmem y hy with ⟨hy, _⟩ | hy
      · have h1 := (mem_view.1 hy).2
        obtain ⟨b2, dk2, g1, g2, g3⟩ := I.req y hy
        unfold Sys.served at h1 ⊢
        simp only
        rw [hold _ (I.idlt y hy), hP.old _ (hne _ (I.idlt y hy)), g3]
        rw [g3] at h1
        simp only at h1 ⊢
        rw [hP.served, h1]; rfl
      · subst hy
        unfold Sys.served
        simp only
        rw [hnewr, hP.new]
        simp only
        rw [hP.served]
        cases hc : (s.d.qs (qid dk)).served.contains r with
        | false => rfl
        | true =>
          exfalso
          have := J.served (qid dk) r (by simpa using hc)
          obtain ⟨⟨y', w⟩, h1, h2⟩ := List.mem_map.1 this
          simp only at h2; subst h2
          exact hfresh _ _ w h1 rfl
    simp only [e]
    have h1 : (fun j => d'.mem (loc j)) = p'.mem := by rw [hm, hP.mem]; rfl
    have h2 : content own d' = p'.disk := by rw [hd]; unfold content; rw [hP.files]; rfl
    rw [h1, h2]
  refine ⟨hlife, ?_, I.nd, I.inj, ?_, by rw [hv]; exact hR, by rw [hv]; exact hX, ?_, ?_, ?_, ?_, ?_, ?_, by rw [hv]; exact ha, fun _ _ _ _ e => absurd e (hnd _ _ _ _)⟩
  · intro c hc
    show c ∈ d'.m.live ∧ _
    rw [hP.m]; exact I.liv c hc
  · intro j
    show (d'.mem (loc j)).length = raw
    rw [hP.mem]; exact I.len j
  · intro i j hi hj e
    change i < p'.nextReq at hi
    change j < p'.nextReq at hj
    change Store.upd s.rid x.id r i = Store.upd s.rid x.id r j at e
    by_cases h1 : i < s.p.nextReq <;> by_cases h2 : j < s.p.nextReq
    · rw [hold i h1, hold j h2] at e; exact I.rid i j h1 h2 e
    · have : j = x.id := by omega
      rw [this, hnewr, hold i h1] at e
      exact absurd e (hne i h1)
    · have : i = x.id := by omega
      rw [this, hnewr, hold j h2] at e
      exact absurd e.symm (hne j h2)
    · omega
  · intro i hi
    change i < p'.nextReq at hi
    show d'.reqs (Store.upd s.rid x.id r i) ≠ none
    by_cases h1 : i < s.p.nextReq
    · rw [hold i h1, hP.old _ (hne i h1)]; exact I.has i h1
    · have : i = x.id := by omega
      rw [this, hnewr, hP.new]; simp
  · rw [hv]
    intro y hy
    show ∃ b dk, _ ∧ _ ∧ d'.reqs (Store.upd s.rid x.id r y.id) = _
    rcases hmem y hy with ⟨hy, _⟩ | hy
    · obtain ⟨b2, dk2, g1, g2, g3⟩ := I.req y hy
      exact ⟨b2, dk2, g1, g2, by rw [hold _ (I.idlt y hy), hP.old _ (hne _ (I.idlt y hy))]; exact g3⟩
    · subst hy
      exact ⟨b, dk, hb, hdk, by rw [hnewr, hP.new]⟩
  · rw [hv, hq]
    show ((s.view qid own loc).q.filter f ++ [x]).Pairwise (fun y z => y.bid = z.bid → ∀ q, d'.reqs (Store.upd s.rid x.id r z.id) = some q →
      Store.Aft (d'.qs (qid q.disk)) (Store.upd s.rid x.id r y.id) (Store.upd s.rid x.id r z.id))
    rw [List.pairwise_append]
    refine ⟨(I.ord.filter f).imp_of_mem ?_, by simp, ?_⟩
    · intro y z hy hz hyz hbid q hq'
      have hy' := I.idlt y (List.mem_filter.1 hy).1
      have hz' := I.idlt z (List.mem_filter.1 hz).1
      rw [hold _ hz', hP.old _ (hne _ hz')] at hq'
      rw [hold _ hy', hold _ hz']
      exact hP.aft (hyz hbid q hq')
    · intro y hy z hz hbid q hq'
      rw [List.mem_singleton] at hz; subst hz
      have hy2 := (List.mem_filter.1 hy).1
      have hy' := I.idlt y hy2
      rw [hnewr, hP.new] at hq'
      injection hq' with hq'; subst hq'
      obtain ⟨b2, dk2, g1, g2, g3⟩ := I.req y hy2
      rw [hbid, hb] at g1; injection g1 with g1; subst g1
      rw [hdk] at g2; injection g2 with g2; subst g2
      rw [hold _ hy', hnewr]
      have g4 := J.req _ _ g3
      exact Store.Aft.push hP.ids (List.mem_map.2 ⟨_, g4, rfl⟩)
  · rw [hv]
    intro y hy q hq' hc
    change d'.reqs (Store.upd s.rid x.id r y.id) = some q at hq'
    change Store.upd s.rid x.id r y.id ∈ (d'.qs (qid q.disk)).cancelled at hc
    rw [hP.cancelled] at hc
    rcases hmem y hy with ⟨hy, hf⟩ | hy
    · rw [hold _ (I.idlt y hy), hP.old _ (hne _ (I.idlt y hy))] at hq'
      rw [hold _ (I.idlt y hy)] at hc
      exact absurd (I.can y hy q hq' hc) (hgood y hy hf)
    · subst hy
      exfalso
      rw [hnewr] at hc
      have ho := Queue.reach_ord (J.que (qid q.disk))
      have : r ∈ (s.d.qs (qid q.disk)).sub.map (·.1) := ho.ca r hc
      obtain ⟨⟨y', w⟩, h1, h2⟩ := List.mem_map.1 this
      simp only at h2; subst h2
      exact hfresh _ _ w h1 rfl
  · rw [hv]
    intro r' q hp hq'
    change d'.reqs r' = some q at hq'
    by_cases e : r' = r
    · subst e
      exact .inl ⟨x, hxq, hnewr⟩
    · have hp' := hP.pending e hp
      rw [hP.old _ e] at hq'
      rcases I.pen r' q hp' hq' with ⟨y, hy, hyr⟩ | ha
      · refine .inl ⟨y, ?_, ?_⟩
        · rw [hq]
          refine List.mem_append_left _ (List.mem_filter.2 ⟨hy, ?_⟩)
          cases hf : f y with
          | true => rfl
          | false => exact absurd (by rw [hyr]; exact hp') (hdead y hy hf)
        · show Store.upd s.rid x.id r y.id = r'
          rw [hold _ (I.idlt y hy)]; exact hyr
      · exact .inr ha

end Foxxll.PoolStore
