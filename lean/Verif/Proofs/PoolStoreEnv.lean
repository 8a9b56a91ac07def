import Verif.Proofs.PoolStoreStep
/-
Cancellation in `invalidate`; steps of the workers and of other clients.
-/
namespace Foxxll.PoolStore
open Foxxll

variable {k : Queue.Kind} {qid : Nat → Nat} {cfgs : List (Nat × Bool)} {own : List Mgr.Bid} {loc : Nat → Nat} {raw : Nat}

theorem Sim.stepCancelP {s s' : Sys} {h : Store.Hist} (I : Sim k qid cfgs own loc raw s h) (hc : Calm k qid own loc s .cancelP)
    (hs : s.step k qid own loc .cancelP = some s') : ∃ h', Sim k qid cfgs own loc raw s' h' := by
  simp only [Sys.step] at hs
  split at hs
  · rename_i i hact
    have ha := I.act
    rw [hact] at ha
    obtain ⟨b, rh, e, hpc, hf, hrd, hei⟩ := ha
    have hlt : i < s.p.nextReq := by
      have := (Pool.reach_inv I.reach).ci.reqlt _ (Pool.mem_ents_p (Pool.findP_some hf).1)
      rw [← hei]; exact this
    have hnd : ∀ j, ¬ Dropping (s.view qid own loc) s.act j := by
      rintro j ⟨_, _, _, _, _, h1, _⟩
      rw [hact] at h1; cases h1
    split at hs
    · rename_i d' ht
      split at hs
      · rename_i p' hp
        injection hs with hs; subst hs
        rcases tryCancel_some ht with ⟨_, _, h3⟩ | ⟨h1, q, h2, h3, h4⟩
        · cases h3
        have hk : k ≠ .twoQ := by
          intro e
          have := hc e i hact
          rw [h1] at this; cases this
        have J := Store.life_inv I.life
        have E := Store.step_eff J (op := .cancel (s.rid i)) trivial h3
        have hlife := Store.Life.next (.cancel (s.rid i)) I.life trivial (fun e => absurd e hk) h3
        have hR : Pool.Reach true p' := .next .cancelRead I.reach trivial hp
        obtain ⟨f1, f2, f3, f4, f5, f6⟩ := cancel_frame h3
        have hp' : p' = Pool.cancel (s.view qid own loc) i := by
          simp only [Pool.step, hpc, hf, hrd, if_true, hei] at hp
          injection hp with hp; exact hp.symm
        have hv : Sys.view qid own loc { p := p', d := d', rid := s.rid, act := .idle } = p' := by
          unfold Sys.view
          have e : p'.q.filter (fun x => !Sys.served qid { p := p', d := d', rid := s.rid, act := .idle } x.id) = p'.q := by
            rw [List.filter_eq_self]
            intro x hx
            rw [hp'] at hx
            have hx1 := (mem_view.1 (List.mem_filter.1 hx).1).2
            have : Sys.served qid { p := p', d := d', rid := s.rid, act := .idle } x.id = false := by
              rw [← hx1]
              unfold Sys.served
              simp only [f3, f6]
            rw [this]; rfl
          simp only [e]
          have g1 : (fun j => d'.mem (loc j)) = p'.mem := by rw [hp', f1]; rfl
          have g2 : content own d' = p'.disk := by rw [hp']; unfold content; rw [f2]; rfl
          rw [g1, g2]
        refine ⟨_, I.move (s' := { p := p', d := d', rid := s.rid, act := .idle }) rfl (by rw [hp']; rfl) E (step_sub h3) hlife (fun _ _ e => by cases e) ?_ ?_ ?_
          (fun x => x.id != i) ?_ ?_ ?_ ?_ trivial ?_⟩
        · intro j
          show (d'.mem (loc j)).length = raw
          rw [f1]; exact I.len j
        · rw [hv]; exact hR
        · rw [hv, hp']
          intro e' he' b' hb' x hx hxb
          exact I.new e' he' b' hb' x (List.mem_filter.1 hx).1 hxb
        · rw [hv, hp']; rfl
        · intro x hx hfx
          have hxi : x.id = i := by simpa using hfx
          rintro ⟨q2, p1, p2, p3⟩
          change d'.reqs (s.rid x.id) = some q2 at p1
          rw [f3, hxi, h2] at p1; injection p1 with p1; subst p1
          rw [hxi] at p3
          exact p3 (by simpa using h4.symm)
        · intro r w b buf e; cases e
        · rw [hv, hp']
          intro x hx q' g1 g2
          exfalso
          obtain ⟨hx1, hx2⟩ := List.mem_filter.1 hx
          change d'.reqs (s.rid x.id) = some q' at g1
          change s.rid x.id ∈ (d'.qs (qid q'.disk)).cancelled at g2
          rw [f3] at g1
          rcases E.can' _ _ g2 with g3 | g3
          · exact hnd _ (I.can x hx1 q' g1 g3)
          · injection g3 with g3
            have := I.rid _ _ (I.idlt x hx1) hlt g3.symm
            simp [this] at hx2
        · intro _ _ _ _ e; cases e
      · cases hs
    · rename_i d' ht
      injection hs with hs; subst hs
      rcases tryCancel_some ht with ⟨h1, h2, h3⟩ | ⟨h1, q, h2, h3, h4⟩
      · subst h2
        refine ⟨h, I.life, I.liv, I.nd, I.inj, I.len, I.reach, I.new, I.rid, I.has, I.req, I.ord, ?_, I.pen, trivial, fun _ _ _ _ e => by cases e⟩
        intro x hx q g1 g2
        exact absurd (I.can x hx q g1 g2) (hnd _)
      · have hk : k ≠ .twoQ := by
          intro e
          have := hc e i hact
          rw [h1] at this; cases this
        have J := Store.life_inv I.life
        have E := Store.step_eff J (op := .cancel (s.rid i)) trivial h3
        have hlife := Store.Life.next (.cancel (s.rid i)) I.life trivial (fun e => absurd e hk) h3
        have hv := @cancel_view k qid own loc s d' (s.rid i) .idle h3
        obtain ⟨f1, f2, f3, f4, f5, f6⟩ := cancel_frame h3
        refine ⟨_, I.move (s' := { s with d := d', act := .idle }) rfl rfl E (step_sub h3) hlife
          (fun _ _ e => by cases e) ?_ ?_ ?_ (fun _ => true) ?_ ?_ ?_ ?_ trivial ?_⟩
        · intro j
          show (d'.mem (loc j)).length = raw
          rw [f1]; exact I.len j
        · rw [hv]; exact I.reach
        · rw [hv]; exact I.new
        · rw [hv, List.filter_eq_self.2 (fun _ _ => rfl)]
        · intro x _ hf; cases hf
        · intro r w b buf e; cases e
        · rw [hv]
          intro x hx q' g1 g2
          exfalso
          change d'.reqs (s.rid x.id) = some q' at g1
          change s.rid x.id ∈ (d'.qs (qid q'.disk)).cancelled at g2
          rw [f3] at g1
          rcases E.can' _ _ g2 with g3 | g3
          · exact hnd _ (I.can x hx q' g1 g3)
          · injection g3 with g3
            have hxi := I.rid _ _ (I.idlt x hx) hlt g3.symm
            rw [hxi, h2] at g1; injection g1 with g1; subst g1
            rw [hxi] at g2
            have : (d'.qs (qid q.disk)).cancelled.contains (s.rid i) = true := by simpa using g2
            rw [this] at h4; cases h4
        · intro _ _ _ _ e; cases e
    · cases hs
  · cases hs

/-- A transfer of a request of another client, or none. -/
theorem content_other {s : Sys} {h : Store.Hist} (I : Sim k qid cfgs own loc raw s h) {op : Store.Op} {d' : Store.St} (hs : Store.step k qid s.d op = some d')
    (hno : ∀ i os r, op = .run i .work os → (s.d.qs i).wpc = .serving r → ∀ x ∈ (s.view qid own loc).q, s.rid x.id ≠ r) :
    content own d' = content own s.d := by
  have J := Store.life_inv I.life
  have same : d'.files = s.d.files → content own d' = content own s.d := by
    intro e; unfold content; rw [e]
  have hqueue : ∀ {d : Store.St} {i : Nat} {op : Queue.Op}, d.queue k i op = some d' → d'.files = d.files := by
    intro d i op h
    obtain ⟨q, _, h2⟩ := Store.queue_some h
    subst h2; rfl
  cases op with
  | mgr op =>
    simp only [Store.step] at hs
    injection hs with hs; subst hs
    refine content_ext ?_
    intro b hb dk hd i hi
    obtain ⟨dk', g1, _, g3⟩ := Store.live_inside J.mgr (I.liv b hb).1
    rw [hd] at g1; injection g1 with g1; subst g1
    exact Store.grown_byte (by omega)
  | fill buf data => simp only [Store.step] at hs; injection hs with hs; subst hs; exact same rfl
  | io r w b buf =>
    simp only [Store.step] at hs
    split at hs
    · exact same (by rw [hqueue hs])
    · cases hs
  | cancel r => exact same (cancel_frame hs).2.1
  | run i qop os =>
    cases qop with
    | signal => exact same (hqueue hs)
    | cancelTake => exact same (hqueue hs)
    | work =>
      simp only [Store.step] at hs
      by_cases hw : ∃ x, (s.d.qs i).wpc = .serving x
      · obtain ⟨r, hw⟩ := hw
        have e : s.d.transfer i os = s.d.serve r os := by unfold Store.St.transfer; rw [hw]
        rw [e] at hs
        obtain ⟨q', h1, h2⟩ := Store.queue_some hs
        obtain ⟨q, g1, g2, hM, hS, _⟩ := J.serve Store.calm_mild hw os h1
        subst h2
        rcases I.pen r q hS.pending g1 with ⟨x, hx, hxr⟩ | ha
        · exact absurd hxr (hno i os r rfl hw x hx)
        · refine content_ext ?_
          intro b hb dk hd i hi
          show ((s.d.serve r os).files dk).byte _ = _
          by_cases ed : dk = q.disk
          · subst ed
            apply hM.out
            have := ha.2 b hb hd
            omega
          · rw [hM.other dk ed]
      · have e : s.d.transfer i os = s.d := by
          unfold Store.St.transfer
          split
          · rename_i r hr; exact absurd ⟨r, hr⟩ hw
          · rfl
        rw [e] at hs
        exact same (hqueue hs)
    | _ => cases hs

/-- A step of a worker or another client that finishes no request of the pools. -/
theorem Sim.stepOther {s : Sys} {h : Store.Hist} (I : Sim k qid cfgs own loc raw s h) {op : Store.Op} {d' : Store.St} (ha : Store.Allowed k qid s.d op)
    (ho : Store.Orderly k op) (hf : Foreign own loc s.d op) (hs : Store.step k qid s.d op = some d')
    (hno : ∀ i os r, op = .run i .work os → (s.d.qs i).wpc = .serving r → ∀ x ∈ (s.view qid own loc).q, s.rid x.id ≠ r) :
    Sim k qid cfgs own loc raw { s with d := d' } (h.next s.d op) := by
  have J := Store.life_inv I.life
  have E := Store.step_eff J ha hs
  have hlife := Store.Life.next op I.life ha ho hs
  have hmem : ∀ j, d'.mem (loc j) = s.d.mem (loc j) := by
    intro j
    rcases E.mem (loc j) with h1 | ⟨data, h1, _⟩ | ⟨_, i, r, q, os, h1, h2, h3, h4, h5, h6, h7⟩
    · exact h1
    · subst h1; exact absurd rfl (hf j)
    · exfalso
      rcases I.pen r q h4 h3 with ⟨x, hx, hxr⟩ | ha
      · exact hno i os r h1 h2 x hx hxr
      · exact ha.1 j h7
  have hsv : ∀ x ∈ s.p.q, Sys.served qid { s with d := d' } x.id = s.served qid x.id := by
    intro x hx
    cases hv : s.served qid x.id with
    | true =>
      cases hq : s.d.reqs (s.rid x.id) with
      | none => unfold Sys.served at hv; rw [hq] at hv; cases hv
      | some q =>
        rw [served_iff hq] at hv
        exact (served_iff (s := { s with d := d' }) (E.req _ _ hq)).2 (E.srv _ _ hv)
    | false =>
      have hxv := (mem_view (qid := qid) (own := own) (loc := loc)).2 ⟨hx, hv⟩
      obtain ⟨b, dk, g1, g2, g3⟩ := I.req x hxv
      cases hc : Sys.served qid { s with d := d' } x.id with
      | false => rfl
      | true =>
        exfalso
        have hc' := (served_iff (s := { s with d := d' }) (E.req _ _ g3)).1 hc
        rcases E.srv' _ _ hc' with h1 | ⟨os, h1, h2⟩
        · rw [(served_iff g3).2 h1] at hv; cases hv
        · exact hno _ os _ h1 h2 x hxv rfl
  have hv : Sys.view qid own loc { s with d := d' } = s.view qid own loc := view_same (a := s.act) hmem (content_other I hs hno) hsv
  refine I.move (s' := { s with d := d' }) rfl rfl E (step_sub hs) hlife ?_ ?_ ?_ ?_ (fun _ => true) ?_ ?_ ?_ ?_ ?_ ?_
  · intro b hb e
    subst e
    exact hf hb
  · intro j
    show (d'.mem (loc j)).length = raw
    rw [hmem]; exact I.len j
  · rw [hv]; exact I.reach
  · rw [hv]; exact I.new
  · rw [hv, List.filter_eq_self.2 (fun _ _ => rfl)]
  · intro x _ hf; cases hf
  · intro r w b buf e
    subst e
    obtain ⟨_, h2, _⟩ := ha
    refine ⟨?_, hf⟩
    rcases E.live b h2 with h | h
    · exact h
    · cases h
  · rw [hv]
    intro x hx q g1 g2
    change d'.reqs (s.rid x.id) = some q at g1
    obtain ⟨b, dk, o1, o2, o3⟩ := I.req x hx
    have := E.req _ _ o3
    rw [g1] at this; injection this with this; subst this
    rcases E.can' _ _ g2 with g3 | g3
    · exact I.can x hx _ o3 g3
    · subst g3
      exact absurd rfl (hf _ o3 x.blk)
  · rw [hv]; exact I.act
  · intro blk bid todo canc e
    exact I.gone' E e

/-- Service of a request that no earlier write to its identifier is in front of. -/
theorem pool_serve {v : Pool.St V} {x : Pool.Req} {a b : List Pool.Req} (hq : v.q = a ++ x :: b) (hi : v.q.Pairwise (fun x y => x.id < y.id))
    (hf : ∀ y ∈ a, y.bid = x.bid → y.rd = true) :
    Pool.step true v (.serve x.id) = .ok (if x.rd then { v with q := v.q.filter (fun y => y.id != x.id), mem := Pool.upd v.mem x.blk (v.disk x.bid) }
      else { v with q := v.q.filter (fun y => y.id != x.id), disk := Pool.upd v.disk x.bid (v.mem x.blk) }) := by
  rw [hq, List.pairwise_append, List.pairwise_cons] at hi
  obtain ⟨_, ⟨h1, _⟩, h2⟩ := hi
  have ha : ∀ y ∈ a, y.id ≠ x.id := fun y hy => Nat.ne_of_lt (h2 y hy x (by simp))
  have hb : ∀ y ∈ b, y.id ≠ x.id := fun y hy => Nat.ne_of_gt (h1 y hy)
  have e1 : v.q.findIdx? (fun y => y.id == x.id) = some a.length := by
    rw [List.findIdx?_eq_some_iff_getElem]
    refine ⟨by rw [hq]; simp, by simp [hq], ?_⟩
    intro j hj
    have : v.q[j]'(by rw [hq]; simp; omega) = a[j] := by simp only [hq]; rw [List.getElem_append_left hj]
    rw [this]
    simpa using ha _ (List.getElem_mem hj)
  have e2 : v.q[a.length]? = some x := by rw [hq]; simp
  have e3 : v.q.eraseIdx a.length = v.q.filter (fun y => y.id != x.id) := by
    rw [hq, List.eraseIdx_append_of_length_le (Nat.le_refl _), List.filter_append, List.filter_cons]
    simp only [Nat.sub_self, List.eraseIdx_cons_zero, bne_self_eq_false, Bool.false_eq_true, if_false]
    rw [List.filter_eq_self.2 (fun y hy => by simpa using ha y hy), List.filter_eq_self.2 (fun y hy => by simpa using hb y hy)]
  have e4 : Pool.mayServe true v.q a.length = true := by
    unfold Pool.mayServe
    rw [e2]
    simp only [Bool.not_true, Bool.false_or, List.all_eq_true]
    rw [hq, List.take_left' rfl]
    intro y hy
    by_cases e : y.bid = x.bid
    · simp [hf y hy e]
    · simp [e]
  simp only [Pool.step, e1, e4, if_true, e2, e3]
  split <;> rfl

/-- The worker finishes a request of the pools. -/
theorem Sim.stepOwn {s : Sys} {h : Store.Hist} (I : Sim k qid cfgs own loc raw s h) {i : Nat} {os : Nat → Files.Sys} {d' : Store.St} {x : Pool.Req}
    (ho : Store.Orderly k (.run i .work os)) (ha : Store.Allowed k qid s.d (.run i .work os))
    (hs : Store.step k qid s.d (.run i .work os) = some d') (hw : (s.d.qs i).wpc = .serving (s.rid x.id)) (hx : x ∈ (s.view qid own loc).q)
    (hok : s.rid x.id ∉ d'.failed) : Sim k qid cfgs own loc raw { s with d := d' } (h.next s.d (.run i .work os)) := by
  have J := Store.life_inv I.life
  have E := Store.step_eff J ha hs
  have hlife := Store.Life.next (.run i .work os) I.life ha ho hs
  have hsub := step_sub hs
  simp only [Store.step] at hs
  have e : s.d.transfer i os = s.d.serve (s.rid x.id) os := by unfold Store.St.transfer; rw [hw]
  rw [e] at hs
  obtain ⟨q', h1, h2⟩ := Store.queue_some hs
  obtain ⟨q, g1, g2, hM, hS, _⟩ := J.serve Store.calm_mild hw os h1
  obtain ⟨b, dk, o1, o2, o3⟩ := I.req x hx
  rw [o3] at g1; injection g1 with g1; subst g1
  simp only at g2
  have hbo : b ∈ own := List.mem_of_getElem? o1
  have hfiles : d'.files = (s.d.serve (s.rid x.id) os).files := by rw [h2]
  have hmems : d'.mem = (s.d.serve (s.rid x.id) os).mem := by rw [h2]
  have hfail : s.rid x.id ∉ (s.d.serve (s.rid x.id) os).failed := by rw [h2] at hok; exact hok
  have hreqs : d'.reqs = s.d.reqs := by rw [h2]; exact hM.reqs
  rw [← h2] at hS
  -- the order
  obtain ⟨a, c, hq⟩ := List.append_of_mem hx
  have hfront : ∀ y ∈ a, y.bid = x.bid → y.rd = true := by
    intro y hy hyb
    cases hrd : y.rd with
    | true => rfl
    | false =>
      exfalso
      have hyq : y ∈ (s.view qid own loc).q := by rw [hq]; simp [hy]
      have hord := I.ord
      rw [hq, List.pairwise_append] at hord
      have haft := hord.2.2 y hy x (by simp) hyb _ o3
      have hids := I.ids
      rw [hq, List.pairwise_append] at hids
      have hlt := hids.2.2 y hy x (by simp)
      obtain ⟨b2, dk2, p1, p2, p3⟩ := I.req y hyq
      rw [hyb, o1] at p1; injection p1 with p1; subst p1
      rw [o2] at p2; injection p2 with p2; subst p2
      have hns : s.rid y.id ∉ (s.d.qs (qid dk)).served := by
        intro hc
        have := (mem_view.1 hyq).2
        rw [(served_iff p3).2 hc] at this; cases this
      by_cases hc : s.rid y.id ∈ (s.d.qs (qid dk)).cancelled
      · obtain ⟨blk, bid, todo, canc, en, d1, d2, d3, d4, d5⟩ := I.can y hyq _ p3 hc
        have := busy_bid I.reach d3 d4 hyq d5.symm
        have := I.new en d3 bid d4 x hx (by rw [← hyb]; exact this.1)
        omega
      · have hsx := J.req _ _ o3
        have hsy := J.req _ _ p3
        exact hns (Store.order (J.que (qid dk)) haft hsx hsy (.inr (by simp [hrd])) hc hS.now)
  have hstep := pool_serve hq I.ids hfront
  have hR := Pool.Reach.next (.serve x.id) I.reach trivial hstep
  -- the queue
  have hsv : ∀ y ∈ s.p.q, (!Sys.served qid { s with d := d' } y.id) = (y.id != x.id && !s.served qid y.id) := by
    intro y hy
    by_cases hyx : y.id = x.id
    · have : Sys.served qid { s with d := d' } y.id = true := by
        rw [hyx]
        exact (served_iff (s := { s with d := d' }) (E.req _ _ o3)).2 (by show _ ∈ (d'.qs (qid dk)).served; rw [hS.served]; simp)
      rw [this]; simp [hyx]
    · have : Sys.served qid { s with d := d' } y.id = s.served qid y.id := by
        cases hv : s.served qid y.id with
        | true =>
          cases hr : s.d.reqs (s.rid y.id) with
          | none => unfold Sys.served at hv; rw [hr] at hv; cases hv
          | some q2 =>
            rw [served_iff hr] at hv
            exact (served_iff (s := { s with d := d' }) (E.req _ _ hr)).2 (E.srv _ _ hv)
        | false =>
          have hyv := (mem_view (qid := qid) (own := own) (loc := loc)).2 ⟨hy, hv⟩
          obtain ⟨b2, dk2, p1, p2, p3⟩ := I.req y hyv
          cases hc : Sys.served qid { s with d := d' } y.id with
          | false => rfl
          | true =>
            exfalso
            have hc' := (served_iff (s := { s with d := d' }) (E.req _ _ p3)).1 hc
            rcases E.srv' _ _ hc' with h1 | ⟨os', h1, h3⟩
            · rw [(served_iff p3).2 h1] at hv; cases hv
            · injection h1 with h1 _ _
              change (s.d.qs (qid dk2)).wpc = .serving (s.rid y.id) at h3
              rw [← h1, hw] at h3
              injection h3 with h3
              exact hyx (I.rid _ _ (I.idlt y hyv) (I.idlt x hx) h3.symm)
      rw [this]; simp [hyx]
  have hq' : (Sys.view qid own loc { s with d := d' }).q = (s.view qid own loc).q.filter (fun y => y.id != x.id) := by
    unfold Sys.view
    simp only [List.filter_filter]
    exact List.filter_congr hsv
  have hbuf : ∀ j, j ≠ x.blk → d'.mem (loc j) = s.d.mem (loc j) := by
    intro j hj
    rw [hmems]
    exact hM.bufs _ (fun e => hj (I.inj _ _ e))
  have hv : Sys.view qid own loc { s with d := d' } = (if x.rd then { s.view qid own loc with q := (s.view qid own loc).q.filter (fun y => y.id != x.id), mem := Pool.upd (s.view qid own loc).mem x.blk ((s.view qid own loc).disk x.bid) }
      else { s.view qid own loc with q := (s.view qid own loc).q.filter (fun y => y.id != x.id), disk := Pool.upd (s.view qid own loc).disk x.bid ((s.view qid own loc).mem x.blk) }) := by
    cases hrd : x.rd with
    | true =>
      simp only [if_true]
      have m1 : (fun j => d'.mem (loc j)) = Pool.upd (s.view qid own loc).mem x.blk ((s.view qid own loc).disk x.bid) := by
        funext j
        unfold Pool.upd
        by_cases hj : j = x.blk
        · subst hj
          rw [if_pos rfl]
          show d'.mem (loc x.blk) = content own s.d x.bid
          unfold content
          rw [o1]
          simp only [o2]
          have hl : (d'.mem (loc x.blk)).length = b.size := by
            rw [hmems, hM.len, I.len, (I.liv b hbo).2]
          apply List.ext_getElem (by rw [hl]; simp)
          intro n n1 n2
          have := hM.get (by simp [hrd]) hfail n (by rw [hl] at n1; exact n1)
          simp only at this
          rw [← hmems] at this
          rw [List.getD_eq_getElem?_getD, List.getElem?_eq_getElem n1, Option.getD_some] at this
          rw [this]; simp
        · rw [if_neg hj]; exact hbuf j hj
      have m2 : content own d' = (s.view qid own loc).disk := by
        show _ = content own s.d
        unfold content
        rw [hfiles, hM.rd (by simp [hrd])]
      have e : Sys.view qid own loc { s with d := d' } = { s.view qid own loc with
          q := (Sys.view qid own loc { s with d := d' }).q, mem := fun j => d'.mem (loc j), disk := content own d' } := rfl
      rw [e, hq', m1, m2]
    | false =>
      simp only [Bool.false_eq_true, if_false]
      have m1 : (fun j => d'.mem (loc j)) = (s.view qid own loc).mem := by
        show _ = fun j => s.d.mem (loc j)
        rw [hmems, hM.wr (by simp [hrd])]
      have m2 : content own d' = Pool.upd (s.view qid own loc).disk x.bid ((s.view qid own loc).mem x.blk) := by
        funext n
        unfold Pool.upd
        by_cases hn : n = x.bid
        · subst hn
          rw [if_pos rfl]
          show content own d' x.bid = s.d.mem (loc x.blk)
          unfold content
          rw [o1]
          simp only [o2]
          have hl : (s.d.mem (loc x.blk)).length = b.size := by rw [I.len, (I.liv b hbo).2]
          apply List.ext_getElem (by rw [hl]; simp)
          intro m n1 n2
          have := hM.put (by simp [hrd]) hfail m (by rw [hl] at n2; exact n2)
          simp only at this
          rw [← hfiles] at this
          rw [List.getD_eq_getElem?_getD, List.getElem?_eq_getElem n2, Option.getD_some] at this
          simp [this]
        · rw [if_neg hn]
          show content own d' n = content own s.d n
          unfold content
          split
          · rfl
          · rename_i b2 hb2
            have hb2o : b2 ∈ own := List.mem_of_getElem? hb2
            split
            · rename_i dk2 hd2
              apply List.map_congr_left
              intro m hm
              rw [List.mem_range] at hm
              rw [hfiles]
              by_cases ed : dk2 = dk
              · subst ed
                have hne : b2 ≠ b := by
                  intro e; subst e
                  obtain ⟨l1, e1⟩ := List.getElem?_eq_some_iff.1 hb2
                  obtain ⟨l2, e2⟩ := List.getElem?_eq_some_iff.1 o1
                  exact hn (nodup_idx I.nd l1 l2 (e1.trans e2.symm))
                have := Store.live_apart J.mgr (I.liv b2 hb2o).1 (I.liv b hbo).1 hne (by rw [hd2, o2])
                unfold Store.Apart at this
                apply hM.out
                simp only
                omega
              · rw [hM.other dk2 ed]
            · rfl
      have e : Sys.view qid own loc { s with d := d' } = { s.view qid own loc with
          q := (Sys.view qid own loc { s with d := d' }).q, mem := fun j => d'.mem (loc j), disk := content own d' } := rfl
      rw [e, hq', m1, m2]
  refine I.move (s' := { s with d := d' }) rfl rfl E hsub hlife ?_ ?_ ?_ ?_ (fun y => y.id != x.id) hq' ?_ ?_ ?_ ?_ ?_
  · intro b hb e; cases e
  · intro j
    show (d'.mem (loc j)).length = raw
    by_cases hj : j = x.blk
    · subst hj; rw [hmems, hM.len]; exact I.len _
    · rw [hbuf j hj]; exact I.len j
  · rw [hv]; exact hR
  · intro e he b' hb' y hy hyb
    rw [hq'] at hy
    exact I.new e he b' hb' y (List.mem_filter.1 hy).1 hyb
  · intro y hy hfy
    have hyi : y.id = x.id := by simpa using hfy
    rw [hyi]
    rintro ⟨q2, p1, p2, _⟩
    change d'.reqs (s.rid x.id) = some q2 at p1
    rw [hreqs, o3] at p1; injection p1 with p1; subst p1
    exact p2 (by show _ ∈ (d'.qs (qid dk)).served; rw [hS.served]; simp)
  · intro r w b buf e; cases e
  · intro y hy q2 p1 p2
    rw [hq'] at hy
    have hy1 := (List.mem_filter.1 hy).1
    change d'.reqs (s.rid y.id) = some q2 at p1
    change s.rid y.id ∈ (d'.qs (qid q2.disk)).cancelled at p2
    rw [hreqs] at p1
    rw [hS.cancelled] at p2
    exact I.can y hy1 q2 p1 p2
  · have := I.act
    show ActOk _ s.act
    cases hact : s.act with
    | idle => trivial
    | inval i => rw [hact] at this; exact this
    | drop blk bid todo canc =>
      rw [hact] at this
      refine ⟨⟨this.1.1, ?_⟩, this.2⟩
      intro e he heb
      have h3 := this.1.2 e he heb
      unfold Pool.isDone at h3 ⊢
      rw [List.all_eq_true] at h3 ⊢
      intro y hy
      have hy' : y ∈ (Sys.view qid own loc { s with d := d' }).q := hy
      rw [hq'] at hy'
      exact h3 y (List.mem_filter.1 hy').1
  · intro blk bid todo canc e
    exact I.gone' E e

/-- Steps of the workers and of other clients. -/
theorem Sim.stepEnv {s s' : Sys} {h : Store.Hist} (I : Sim k qid cfgs own loc raw s h) {op : Store.Op} (ha : Store.Allowed k qid s.d op)
    (ho : Store.Orderly k op) (hf : Foreign own loc s.d op) (hs : s.step k qid own loc (.env op) = some s') (hfine : s'.Fine) :
    ∃ h', Sim k qid cfgs own loc raw s' h' := by
  simp only [Sys.step] at hs
  split at hs
  · rename_i d' hd
    injection hs with hs; subst hs
    by_cases hc : ∃ i os x, op = .run i .work os ∧ x ∈ (s.view qid own loc).q ∧ (s.d.qs i).wpc = .serving (s.rid x.id)
    · obtain ⟨i, os, x, h1, h2, h3⟩ := hc
      subst h1
      exact ⟨_, I.stepOwn ho ha hd h3 h2 (hfine x.id (I.idlt x h2))⟩
    · refine ⟨_, I.stepOther ha ho hf hd ?_⟩
      intro i os r h1 h2 x hx e
      exact hc ⟨i, os, x, h1, hx, by rw [e]; exact h2⟩
  · cases hs

end Foxxll.PoolStore
