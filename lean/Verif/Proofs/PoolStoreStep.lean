import Verif.Proofs.PoolStore
/-
Every event keeps the simulation.
-/
namespace Foxxll.PoolStore
open Foxxll

variable {k : Queue.Kind} {qid : Nat → Nat} {cfgs : List (Nat × Bool)} {own : List Mgr.Bid} {loc : Nat → Nat} {raw : Nat}

theorem next_ok (old new : Pool.St V) : ActOk new (next old new) := by
  unfold next
  split
  · rename_i b rh h1 h2
    split
    · rename_i e he
      split
      · rename_i hrd
        exact ⟨b, rh, e, h2, he, hrd, rfl⟩
      · trivial
    · trivial
  · trivial

theorem next_nd (old new : Pool.St V) : ∀ blk bid todo canc, next old new ≠ .drop blk bid todo canc := by
  intro blk bid todo canc h
  unfold next at h
  repeat' split at h
  all_goals cases h

theorem settle_same {s s' : Sys} {p' : Pool.St V} {r : Nat} (hn : p'.nextReq = s.p.nextReq) (h : s.settle k qid own loc p' r = some s') :
    s' = { s with p := p', act := next s.p p' } := by
  unfold Sys.settle made at h
  rw [if_neg (by omega)] at h
  simp only [Option.some.injEq] at h
  exact h.symm

theorem settle_new {s s' : Sys} {p' : Pool.St V} {r : Nat} {l : List Pool.Req} {x : Pool.Req} (hn : p'.nextReq = s.p.nextReq + 1) (hq : p'.q = l ++ [x])
    (h : s.settle k qid own loc p' r = some s') :
    ∃ b d', own[x.bid]? = some b ∧ Store.step k qid s.d (.io r (!x.rd) b (loc x.blk)) = some d' ∧
      s' = { p := p', d := d', rid := Store.upd s.rid x.id r, act := next s.p p' } := by
  unfold Sys.settle made at h
  rw [if_pos (by omega), hq] at h
  simp only [List.getLast?_append, List.getLast?_singleton, Option.some_or] at h
  split at h
  · cases h
  · rename_i op hop
    unfold ioOf at hop
    split at hop
    · cases hop
    · rename_i b hb
      injection hop with hop; subst hop
      split at h
      · cases h
      · rename_i d' hd
        injection h with h
        exact ⟨b, d', hb, hd, h.symm⟩

/-- `call` -/
theorem Sim.stepCall {s s' : Sys} {h : Store.Hist} (I : Sim k qid cfgs own loc raw s h) {op : Pool.Op V} {r : Nat}
    (hl : Pool.Legal (s.view qid own loc) op) (hr : s.d.reqs r = none) (hs : s.step k qid own loc (.call op r) = some s') :
    ∃ h', Sim k qid cfgs own loc raw s' h' := by
  simp only [Sys.step] at hs
  split at hs
  · rename_i hc
    simp only [Bool.and_eq_true, decide_eq_true_eq] at hc
    obtain ⟨hi, hsim⟩ := hc
    split at hs
    · rename_i p' hp
      have hS := simple_shape hsim hp
      have hR : Pool.Reach true p' := .next op I.reach hl hp
      have hX := hS.newest I.new
      rcases hS.req with ⟨h1, h2⟩ | ⟨b, blk, h1, h2, h3⟩
      · rw [settle_same h2 hs]
        exact ⟨h, I.call hi hR hX hS.mem hS.disk h1 h2 (next_ok _ _) (next_nd _ _)⟩
      · obtain ⟨bid, d', g1, g2, g3⟩ := settle_new (x := ⟨(s.view qid own loc).nextReq, true, b, blk⟩) h2 h1 hs
        rw [g3]
        refine ⟨_, I.push hR hX hS.mem hS.disk (fun _ => true) ?_ rfl h2 ?_ ?_ ?_ g1 hr g2 (next_ok _ _) (next_nd _ _)⟩
        · rw [List.filter_eq_self.2 (fun _ _ => rfl)]; exact h1
        · intro y _ hf; cases hf
        · rintro y _ _ ⟨_, _, _, _, _, e, _⟩
          rw [hi] at e; cases e
        · intro _ hrd; cases hrd
    · cases hs
  · cases hs

theorem content_ext {d d' : Store.St} (h : ∀ b ∈ own, ∀ dk, b.storage = .managed dk → ∀ i, i < b.size → (d'.files dk).byte (b.off + i) = (d.files dk).byte (b.off + i)) :
    content own d' = content own d := by
  funext n
  unfold content
  split
  · rfl
  · rename_i b hb
    have hbo : b ∈ own := List.mem_of_getElem? hb
    split
    · rename_i dk hd
      apply List.map_congr_left
      intro i hi
      exact h b hbo dk hd i (List.mem_range.1 hi)
    · rfl

/-- The view of the pools is the same if nothing of theirs changes. -/
theorem view_same {s : Sys} {d' : Store.St} {a : Act} (hm : ∀ j, d'.mem (loc j) = s.d.mem (loc j)) (hc : content own d' = content own s.d)
    (hs : ∀ x ∈ s.p.q, Sys.served qid { s with d := d', act := a } x.id = s.served qid x.id) :
    Sys.view qid own loc { s with d := d', act := a } = s.view qid own loc := by
  unfold Sys.view
  have e : s.p.q.filter (fun x => !Sys.served qid { s with d := d', act := a } x.id) = s.p.q.filter (fun x => !s.served qid x.id) :=
    List.filter_congr (fun x hx => by rw [hs x hx])
  simp only [e, hc]
  have h1 : (fun j => d'.mem (loc j)) = fun j => s.d.mem (loc j) := funext hm
  rw [h1]

/-- `fill` -/
theorem Sim.stepFill {s s' : Sys} {h : Store.Hist} (I : Sim k qid cfgs own loc raw s h) {blk : Nat} {data : List UInt8}
    (hb : blk ∈ s.p.uidle) (hlen : data.length = raw) (hs : s.step k qid own loc (.fill blk data) = some s') :
    ∃ h', Sim k qid cfgs own loc raw s' h' := by
  simp only [Sys.step] at hs
  split at hs
  · rename_i hc
    simp only [Bool.and_eq_true, decide_eq_true_eq] at hc
    obtain ⟨hi, hpc⟩ := hc
    split at hs
    · rename_i d' hd
      injection hs with hs; subst hs
      have hfree := (Pool.reach_inv I.reach).ci.idle_free (b := blk) (by
        show blk ∈ Pool.idleOf (s.view qid own loc)
        simp only [Pool.idleOf, List.mem_append]
        exact .inr hb)
      have hal : Store.Allowed k qid s.d (.fill (loc blk) data) := by
        intro r q hp hq e
        rcases I.pen r q hp hq with ⟨x, hx, hxr⟩ | ha
        · obtain ⟨b2, dk, _, _, g3⟩ := I.req x hx
          rw [hxr, hq] at g3; injection g3 with g3; subst g3
          exact hfree.1 x hx (I.inj _ _ e)
        · exact ha.1 _ e
      have J := Store.life_inv I.life
      have E := Store.step_eff J hal hd
      have hlife := Store.Life.next _ I.life hal (fun _ _ e => by cases e) hd
      have hsub := step_sub hd
      simp only [Store.step] at hd
      injection hd with hd
      have hv : Sys.view qid own loc { s with d := d' } = { s.view qid own loc with mem := Pool.upd (s.view qid own loc).mem blk data } := by
        subst hd
        unfold Sys.view
        have e : s.p.q.filter (fun x => !Sys.served qid { s with d := { s.d with mem := Store.upd s.d.mem (loc blk) data } } x.id)
            = s.p.q.filter (fun x => !s.served qid x.id) := rfl
        simp only [e]
        have h1 : (fun j => Store.upd s.d.mem (loc blk) data (loc j)) = Pool.upd (fun j => s.d.mem (loc j)) blk data := by
          funext j
          unfold Store.upd Pool.upd
          by_cases e : j = blk
          · subst e; simp
          · rw [if_neg e, if_neg (fun he => e (I.inj _ _ he))]
        rw [h1]; rfl
      have hst : Pool.step true (s.view qid own loc) (.fill blk data) = .ok (Sys.view qid own loc { s with d := d' }) := by
        rw [hv]
        simp only [Pool.step]
        exact if_pos hpc
      refine ⟨_, I.move (op := .fill (loc blk) data) rfl rfl E hsub hlife (fun _ _ e => by cases e) ?_ (.next (.fill blk data) I.reach hb hst) ?_ (fun _ => true) ?_ ?_ ?_ ?_ ?_ ?_⟩
      · intro j
        show (d'.mem (loc j)).length = raw
        subst hd
        show (Store.upd s.d.mem (loc blk) data (loc j)).length = raw
        unfold Store.upd
        split
        · exact hlen
        · exact I.len j
      · rw [hv]; exact I.new
      · rw [hv, List.filter_eq_self.2 (fun _ _ => rfl)]
      · intro x _ hf; cases hf
      · intro r w b buf e; cases e
      · rw [hv]
        intro x hx q hq hc
        subst hd
        exact I.can x hx q hq hc
      · show ActOk _ s.act
        rw [hi]; trivial
      · intro _ _ _ _ e
        change s.act = _ at e
        rw [hi] at e; cases e
    · cases hs
  · cases hs

/-- `write` is called. -/
theorem Sim.stepWrite {s s' : Sys} {h : Store.Hist} (I : Sim k qid cfgs own loc raw s h) {blk bid : Nat}
    (hl : Pool.Legal (s.view qid own loc) (.write blk bid [] false)) (hs : s.step k qid own loc (.write blk bid) = some s') :
    ∃ h', Sim k qid cfgs own loc raw s' h' := by
  simp only [Sys.step] at hs
  split at hs
  · rename_i hc
    simp only [Bool.and_eq_true, decide_eq_true_eq] at hc
    obtain ⟨⟨hi, hpc⟩, _⟩ := hc
    injection hs with hs; subst hs
    have hv : Sys.view qid own loc { s with act := .drop blk bid (stale s.p bid) [] } = s.view qid own loc := rfl
    refine ⟨h, I.life, I.liv, I.nd, I.inj, I.len, I.reach, I.new, I.rid, I.has, I.req, I.ord, ?_, I.pen, ⟨hl, ?_⟩, ?_⟩
    · intro x hx q h1 h2
      obtain ⟨_, _, _, _, _, e, _⟩ := I.can x hx q h1 h2
      rw [hi] at e; cases e
    · intro i hi'
      rcases hi' with hi' | hi'
      · unfold stale at hi'
        obtain ⟨e, he, rfl⟩ := List.mem_map.1 hi'
        obtain ⟨h1, h2⟩ := List.mem_filter.1 he
        exact ⟨e, h1, by simpa using h2, rfl⟩
      · cases hi'
    · intro _ _ _ _ e i hi'
      injection e with _ _ _ e; subst e
      cases hi'
  · cases hs

theorem tryCancel_some {s : Sys} {i : Nat} {d : Store.St} {b : Bool} (h : s.tryCancel k qid i = some (d, b)) :
    (s.served qid i = true ∧ d = s.d ∧ b = false) ∨ (s.served qid i = false ∧ ∃ q, s.d.reqs (s.rid i) = some q ∧ Store.step k qid s.d (.cancel (s.rid i)) = some d ∧
      b = (d.qs (qid q.disk)).cancelled.contains (s.rid i)) := by
  unfold Sys.tryCancel at h
  split at h
  · rename_i hs
    simp only [Option.some.injEq, Prod.mk.injEq] at h
    exact .inl ⟨hs, h.1.symm, h.2.symm⟩
  · rename_i hs
    split at h
    · cases h
    · rename_i q hq
      split at h
      · cases h
      · rename_i d' hd
        simp only [Option.some.injEq, Prod.mk.injEq] at h
        refine .inr ⟨by simpa using hs, q, hq, by rw [hd, h.1], ?_⟩
        rw [← h.1]; exact h.2.symm

theorem cancel_frame {d d' : Store.St} {r : Nat} (h : Store.step k qid d (.cancel r) = some d') :
    d'.mem = d.mem ∧ d'.files = d.files ∧ d'.reqs = d.reqs ∧ d'.m = d.m ∧ d'.failed = d.failed ∧ (∀ i, (d'.qs i).served = (d.qs i).served) := by
  simp only [Store.step] at h
  split at h
  · obtain ⟨q, h1, h2⟩ := Store.queue_some h
    subst h2
    exact ⟨rfl, rfl, rfl, rfl, rfl, Store.upd_cases (P := fun j (a : Queue.St) => a.served = (d.qs j).served) (Store.cancel_quiet h1).served (fun _ => rfl)⟩
  · cases h

/-- A cancellation does not change what the methods of the pools see. -/
theorem cancel_view {s : Sys} {d' : Store.St} {r : Nat} {a : Act} (h : Store.step k qid s.d (.cancel r) = some d') :
    Sys.view qid own loc { s with d := d', act := a } = s.view qid own loc := by
  obtain ⟨h1, h2, h3, _, _, h4⟩ := cancel_frame h
  refine view_same (fun j => by rw [h1]) (by unfold content; rw [h2]) ?_
  intro x _
  unfold Sys.served
  simp only [h3, h4]

/-- `cancel()` in the loop of `write_pool::write`. -/
theorem Sim.stepCancel {s s' : Sys} {h : Store.Hist} (I : Sim k qid cfgs own loc raw s h) (hc : Calm k qid own loc s .cancel)
    (hs : s.step k qid own loc .cancel = some s') : ∃ h', Sim k qid cfgs own loc raw s' h' := by
  simp only [Sys.step] at hs
  split at hs
  · rename_i blk bid i todo canc hact
    split at hs
    · rename_i d' done ht
      injection hs with hs; subst hs
      have ha := I.act
      rw [hact] at ha
      obtain ⟨hleg, hbusy⟩ := ha
      have hact' : ∀ done : Bool, ActOk (s.view qid own loc) (.drop blk bid todo (if done then i :: canc else canc)) := by
        intro done
        refine ⟨hleg, fun j hj => hbusy j ?_⟩
        rcases hj with hj | hj
        · exact .inl (List.mem_cons_of_mem _ hj)
        · split at hj
          · rcases List.mem_cons.1 hj with rfl | hj
            · exact .inl List.mem_cons_self
            · exact .inr hj
          · exact .inr hj
      have hdrop : ∀ (done : Bool) j, Dropping (s.view qid own loc) s.act j → Dropping (s.view qid own loc) (.drop blk bid todo (if done then i :: canc else canc)) j := by
        rintro done j ⟨blk', bid', todo', canc', e, h1, h2, h3, h4, h5⟩
        rw [hact] at h1; injection h1 with _ e2 e3 e4
        subst e2; subst e4
        refine ⟨blk, bid, todo, _, e, rfl, ?_, h3, h4, h5⟩
        split
        · exact List.mem_cons_of_mem _ h2
        · exact h2
      rcases tryCancel_some ht with ⟨h1, h2, h3⟩ | ⟨h1, q, h2, h3, h4⟩
      · subst h2; subst h3
        refine ⟨h, I.life, I.liv, I.nd, I.inj, I.len, I.reach, I.new, I.rid, I.has, I.req, I.ord, ?_, I.pen, hact' false, ?_⟩
        · intro x hx q g1 g2
          exact hdrop false _ (I.can x hx q g1 g2)
        · intro _ _ _ _ e
          injection e with _ _ _ e; subst e
          exact I.gone _ _ _ _ hact
      · have hk : k ≠ .twoQ := by
          intro e
          have := hc e blk bid i todo canc hact
          rw [h1] at this; cases this
        have J := Store.life_inv I.life
        have E := Store.step_eff J (op := .cancel (s.rid i)) trivial h3
        have hlife := Store.Life.next (.cancel (s.rid i)) I.life trivial (fun e => absurd e hk) h3
        have hv := @cancel_view k qid own loc s d' (s.rid i) (.drop blk bid todo (if done then i :: canc else canc)) h3
        have hmem := (cancel_frame h3).1
        refine ⟨_, I.move (s' := { s with d := d', act := .drop blk bid todo (if done then i :: canc else canc) }) rfl rfl E (step_sub h3) hlife
          (fun _ _ e => by cases e) ?_ ?_ ?_ (fun _ => true) ?_ ?_ ?_ ?_ ?_ ?_⟩
        · intro j
          show (d'.mem (loc j)).length = raw
          rw [hmem]; exact I.len j
        · rw [hv]; exact I.reach
        · rw [hv]; exact I.new
        · rw [hv, List.filter_eq_self.2 (fun _ _ => rfl)]
        · intro x _ hf; cases hf
        · intro r w b buf e; cases e
        · rw [hv]
          intro x hx q' g1 g2
          change d'.reqs (s.rid x.id) = some q' at g1
          change s.rid x.id ∈ (d'.qs (qid q'.disk)).cancelled at g2
          rw [(cancel_frame h3).2.2.1] at g1
          rcases E.can' _ _ g2 with g3 | g3
          · exact hdrop _ _ (I.can x hx q' g1 g3)
          · injection g3 with g3
            obtain ⟨e, he1, he2, he3⟩ := hbusy i (.inl List.mem_cons_self)
            have hie : i < s.p.nextReq := by
              have := (Pool.reach_inv I.reach).ci.reqlt _ (Pool.mem_ents_w he1)
              rw [← he3]; exact this
            have hxi : x.id = i := I.rid _ _ (I.idlt x hx) hie g3.symm
            rw [hxi, h2] at g1; injection g1 with g1; subst g1
            refine ⟨blk, bid, todo, _, e, rfl, ?_, he1, he2, by rw [he3, hxi]⟩
            have : done = true := by rw [h4]; rw [hxi] at g2; simpa using g2
            rw [this, hxi]; simp
        · rw [hv]; exact hact' done
        · intro _ _ _ _ e j hj
          injection e with _ _ _ e; subst e
          cases hd : done with
          | false =>
            rw [hd] at hj
            exact I.gone' E hact j hj
          | true =>
            rw [hd] at hj
            rcases List.mem_cons.1 hj with rfl | hj
            · rintro ⟨q2, p1, p2, p3⟩
              change d'.reqs (s.rid j) = some q2 at p1
              rw [(cancel_frame h3).2.2.1, h2] at p1; injection p1 with p1; subst p1
              rw [hd] at h4
              exact p3 (by simpa using h4.symm)
            · exact I.gone' E hact j hj
    · cases hs
  · cases hs

/-- The rest of `write_pool::write`. -/
theorem Sim.stepSubmit {s s' : Sys} {h : Store.Hist} (I : Sim k qid cfgs own loc raw s h) {r : Nat} (hr : s.d.reqs r = none)
    (hc : Calm k qid own loc s (.submit r)) (hs : s.step k qid own loc (.submit r) = some s') : ∃ h', Sim k qid cfgs own loc raw s' h' := by
  simp only [Sys.step] at hs
  split at hs
  · rename_i blk bid canc hact
    split at hs
    · rename_i p' hp
      have ha := I.act
      rw [hact] at ha
      obtain ⟨hleg, hbusy⟩ := ha
      have hW := write_wrote hp
      have hR : Pool.Reach true p' := .next (.write blk bid canc false) I.reach hleg hp
      have hX := hW.newest I.new (Pool.reach_inv I.reach).ci.idlt
      obtain ⟨b, d', g1, g2, g3⟩ := settle_new (x := ⟨(s.view qid own loc).nextReq, false, bid, blk⟩) hW.next hW.q hs
      rw [g3]
      refine ⟨_, I.push hR hX hW.mem hW.disk _ hW.q rfl hW.next ?_ ?_ ?_ g1 hr g2 (next_ok _ _) (next_nd _ _)⟩
      · intro y hy hf
        simp only [Bool.not_eq_false', Bool.and_eq_true] at hf
        exact I.gone _ _ _ _ hact y.id (by simpa using hf.1)
      · rintro y hy hf ⟨blk', bid', todo', canc', e, h1, h2, h3, h4, h5⟩
        rw [hact] at h1; injection h1 with _ e2 _ e4
        subst e2; subst e4
        simp only [Bool.not_eq_true', Bool.and_eq_false_iff] at hf
        rcases hf with hf | hf
        · have : canc.contains y.id = true := by simpa using h2
          rw [this] at hf; cases hf
        · rw [List.any_eq_false] at hf
          exact hf e h3 (by simp [h4, h5])
      · intro hk _ y hy hyb
        exact hc hk blk bid [] canc hact y hy hyb
    · cases hs
  · cases hs

end Foxxll.PoolStore
