import Verif.Proofs.StoreServe
import Verif.Proofs.StoreQueue
/-
The writes of one block: where their data are.
-/
namespace Foxxll.Store
open Foxxll

/-- About the writes `L` (latest first) of the range `o`, `z` of disk `d`: those made since the block was allocated, or,
with `stop = some r`, those made before the read `r`. -/
structure Track (k : Queue.Kind) (qid : Nat → Nat) (s : St) (d o z : Nat) (L : List Wrote) (stop : Option Nat) : Prop where
  req : ∀ e ∈ L, ∃ q, s.reqs e.r = some q ∧ q.write = true ∧ q.disk = d ∧ q.off = o ∧ q.size = z ∧ e.data.length = z ∧
    (Pending qid s e.r → s.mem q.buf = e.data)
  ord : L.Pairwise (fun e e' => Aft (s.qs (qid d)) e'.r e.r)
  sep : ∀ e ∈ L, ∀ x q, Aft (s.qs (qid d)) e.r x → s.reqs x = some q → q.write = true → q.disk = d →
    (∀ r, stop = some r → Aft (s.qs (qid d)) x r) → (∃ e' ∈ L, e'.r = x) ∨ Apart q.off q.size o z
  val : ∀ e ∈ L, e.r ∈ (s.qs (qid d)).served → e.r ∉ s.failed →
    (∀ e' ∈ L, Aft (s.qs (qid d)) e.r e'.r → e'.r ∉ (s.qs (qid d)).served) → ∀ i, i < z → (s.files d).byte (o + i) = e.data.getD i 0
  fin : ∀ r, stop = some r → k = .twoQ → ∀ x q, Aft (s.qs (qid d)) r x → s.reqs x = some q → q.write = true → q.disk = d →
    Apart q.off q.size o z
  stp : ∀ r, stop = some r → ∀ e ∈ L, Aft (s.qs (qid d)) e.r r

variable {k : Queue.Kind} {qid : Nat → Nat}

theorem track_nil {s : St} {d o z : Nat} : Track k qid s d o z [] none where
  req := by simp
  ord := List.Pairwise.nil
  sep := by simp
  val := by simp
  fin := fun r h => by cases h
  stp := fun r h => by cases h

/-- Steps that submit and serve nothing. -/
theorem Track.frame {s s' : St} {d o z : Nat} {L : List Wrote} {stop : Option Nat} (t : Track k qid s d o z L stop)
    (hreq : s'.reqs = s.reqs) (hsub : ∀ i, (s'.qs i).sub = (s.qs i).sub) (hsrv : ∀ i, (s'.qs i).served = (s.qs i).served)
    (hcan : ∀ i, ∀ x ∈ (s.qs i).cancelled, x ∈ (s'.qs i).cancelled) (hfail : ∀ x ∈ s.failed, x ∈ s'.failed)
    (hmem : ∀ x q, Pending qid s x → s.reqs x = some q → q.write = true → s'.mem q.buf = s.mem q.buf)
    (hf : ∀ i, i < z → (s'.files d).byte (o + i) = (s.files d).byte (o + i)) : Track k qid s' d o z L stop := by
  have ha : ∀ w x, Aft (s'.qs (qid d)) w x ↔ Aft (s.qs (qid d)) w x := by
    intro w x; unfold Aft; rw [hsub]
  have hp : ∀ x, Pending qid s' x → Pending qid s x := by
    rintro x ⟨q, h1, h2, h3⟩
    rw [hreq] at h1
    exact ⟨q, h1, by rwa [hsrv] at h2, fun h => h3 (hcan _ _ h)⟩
  constructor
  · intro e he
    obtain ⟨q, h1, h2, h3, h4, h5, h6, h7⟩ := t.req e he
    refine ⟨q, by rw [hreq]; exact h1, h2, h3, h4, h5, h6, fun h => ?_⟩
    rw [hmem _ q (hp _ h) h1 h2]; exact h7 (hp _ h)
  · simp only [ha]; exact t.ord
  · intro e he x q h1 h2 h3 h4 h5
    rw [hreq] at h2
    refine t.sep e he x q ((ha _ _).1 h1) h2 h3 h4 (fun r hr => (ha _ _).1 (h5 r hr))
  · intro e he h1 h2 h3 i hi
    rw [hsrv] at h1
    rw [hf i hi]
    refine t.val e he h1 (fun h => h2 (hfail _ h)) (fun e' he' h => ?_) i hi
    have := h3 e' he' ((ha _ _).2 h)
    rwa [hsrv] at this
  · intro r hr hk x q h1 h2 h3 h4
    rw [hreq] at h2
    exact t.fin r hr hk x q ((ha _ _).1 h1) h2 h3 h4
  · intro r hr e he
    exact (ha _ _).2 (t.stp r hr e he)

/-- A request is submitted. -/
structure Pushed (qid : Nat → Nat) (s s' : St) (x : Nat) (q : Req) : Prop where
  fresh : s.reqs x = none
  new : s'.reqs x = some q
  old : ∀ y, y ≠ x → s'.reqs y = s.reqs y
  sub : (s'.qs (qid q.disk)).sub = (s.qs (qid q.disk)).sub ++ [(x, q.write)]
  sub' : ∀ i, i ≠ qid q.disk → (s'.qs i).sub = (s.qs i).sub
  served : ∀ i, (s'.qs i).served = (s.qs i).served
  cancelled : ∀ i, (s'.qs i).cancelled = (s.qs i).cancelled
  files : s'.files = s.files
  mem : s'.mem = s.mem
  failed : s'.failed = s.failed
  m : s'.m = s.m

theorem Pushed.ids {s s' : St} {x : Nat} {q : Req} (h : Pushed qid s s' x q) :
    (s'.qs (qid q.disk)).sub.map (·.1) = (s.qs (qid q.disk)).sub.map (·.1) ++ [x] := by
  rw [h.sub]; simp

theorem Pushed.aft {s s' : St} {x : Nat} {q : Req} (h : Pushed qid s s' x q) {i w y : Nat} (ha : Aft (s.qs i) w y) : Aft (s'.qs i) w y := by
  by_cases e : i = qid q.disk
  · subst e; exact ha.mono h.ids
  · unfold Aft at ha ⊢
    rw [h.sub' i e]; exact ha

theorem Pushed.aft' {s s' : St} {x : Nat} {q : Req} (h : Pushed qid s s' x q) {i w y : Nat} (ha : Aft (s'.qs i) w y) (hy : y ≠ x) : Aft (s.qs i) w y := by
  by_cases e : i = qid q.disk
  · subst e
    rcases ha.old h.ids with h1 | h1
    · exact absurd h1 hy
    · exact h1
  · unfold Aft at ha ⊢
    rw [h.sub' i e] at ha; exact ha

theorem Pushed.pending {s s' : St} {x : Nat} {q : Req} (h : Pushed qid s s' x q) {y : Nat} (hy : y ≠ x) (hp : Pending qid s' y) : Pending qid s y := by
  obtain ⟨q', h1, h2, h3⟩ := hp
  rw [h.old y hy] at h1
  exact ⟨q', h1, by rwa [h.served] at h2, by rwa [h.cancelled] at h3⟩

theorem Pushed.keep {s s' : St} {x y : Nat} {q q' : Req} (h : Pushed qid s s' x q) (hy : s.reqs y = some q') : y ≠ x ∧ s'.reqs y = some q' := by
  have : y ≠ x := by
    intro e; subst e; rw [h.fresh] at hy; cases hy
  exact ⟨this, by rw [h.old y this]; exact hy⟩

/-- Another request is submitted. -/
theorem Track.push {s s' : St} {d o z : Nat} {L : List Wrote} {stop : Option Nat} (t : Track k qid s d o z L stop) {x : Nat} {q : Req}
    (h : Pushed qid s s' x q) (hsub : ∀ i y w, (y, w) ∈ (s.qs i).sub → y ≠ x)
    (hap : q.write = true → q.disk = d → (stop = none ∨ k = .twoQ) → Apart q.off q.size o z) : Track k qid s' d o z L stop := by
  have hns : ∀ i y, y ∈ (s.qs i).sub.map (·.1) → y ≠ x := by
    intro i y hy
    obtain ⟨⟨y', w⟩, h1, h2⟩ := List.mem_map.1 hy
    simp only at h2; subst h2
    exact hsub i _ w h1
  constructor
  · intro e he
    obtain ⟨q', h1, h2, h3, h4, h5, h6, h7⟩ := t.req e he
    obtain ⟨h8, h9⟩ := h.keep h1
    exact ⟨q', h9, h2, h3, h4, h5, h6, fun hp => by rw [h.mem]; exact h7 (h.pending h8 hp)⟩
  · exact t.ord.imp (fun ha => h.aft ha)
  · intro e he y q' h1 h2 h3 h4 h5
    by_cases hy : y = x
    · subst hy
      rw [h.new] at h2
      injection h2 with h2; subst h2
      cases stop with
      | none => exact .inr (hap h3 h4 (.inl rfl))
      | some r =>
        exfalso
        have h6 := h5 r rfl
        by_cases hr : r = y
        · subst hr
          obtain ⟨q2, g1, _⟩ := t.req e he
          -- the new request is the last one, so it is not before itself
          have h7 := t.stp r rfl e he
          exact hns _ _ h7.right rfl
        · exact hns _ _ (h.aft' h6 hr).left rfl
    · rw [h.old y hy] at h2
      refine t.sep e he y q' (h.aft' h1 hy) h2 h3 h4 (fun r hr => ?_)
      have h7 := t.stp r hr e he
      exact h.aft' (h5 r hr) (hns _ _ h7.right)
  · intro e he h1 h2 h3 i hi
    rw [h.served] at h1
    rw [h.failed] at h2
    rw [h.files]
    refine t.val e he h1 h2 (fun e' he' ha => ?_) i hi
    have := h3 e' he' (h.aft ha)
    rwa [h.served] at this
  · intro r hr hk y q' h1 h2 h3 h4
    by_cases hy : y = x
    · subst hy
      rw [h.new] at h2
      injection h2 with h2; subst h2
      exact hap h3 h4 (.inr hk)
    · rw [h.old y hy] at h2
      exact t.fin r hr hk y q' (h.aft' h1 hy) h2 h3 h4
  · intro r hr e he
    exact h.aft (t.stp r hr e he)

/-- A write of the block is submitted. -/
theorem Track.write {s s' : St} {d o z : Nat} {L : List Wrote} (t : Track k qid s d o z L none) {x buf : Nat} {b : Mgr.Bid}
    (h : Pushed qid s s' x ⟨d, true, o, z, buf⟩) (hsub : ∀ i y w, (y, w) ∈ (s.qs i).sub → y ≠ x)
    (hreq : ∀ y q, s.reqs y = some q → y ∈ (s.qs (qid q.disk)).sub.map (·.1)) (hsrv : ∀ i, ∀ y ∈ (s.qs i).served, y ∈ (s.qs i).sub.map (·.1))
    (hl : (s.mem buf).length = z) : Track k qid s' d o z (⟨x, b, s.mem buf⟩ :: L) none := by
  have hns : ∀ i y, y ∈ (s.qs i).sub.map (·.1) → y ≠ x := by
    intro i y hy
    obtain ⟨⟨y', w⟩, h1, h2⟩ := List.mem_map.1 hy
    simp only at h2; subst h2
    exact hsub i _ w h1
  have hxs : x ∉ (s'.qs (qid d)).served := by
    rw [h.served]; intro hx; exact hns _ _ (hsrv _ _ hx) rfl
  have hlast : ∀ y, ¬ Aft (s'.qs (qid d)) x y := by
    intro y ha
    by_cases hy : y = x
    · subst hy
      obtain ⟨a, b, h1, h2, h3⟩ := ha
      have e : (s.qs (qid d)).sub.map (·.1) ++ [y] = a ++ b := by rw [← h1]; exact h.ids.symm
      rcases List.append_eq_append_iff.1 e with ⟨u, h7, h8⟩ | ⟨u, h7, h8⟩
      · cases b with
        | nil => cases h3
        | cons z' b =>
          cases u with
          | nil =>
            rw [List.append_nil] at h7
            rw [h7] at h2
            exact hns _ _ h2 rfl
          | cons u1 u =>
            have := congrArg List.length h8
            simp at this
      · exact hns (qid d) y (by rw [h7]; simp [h2]) rfl
    · exact hns _ _ (h.aft' ha hy).left rfl
  constructor
  · intro e he
    rcases List.mem_cons.1 he with he | he
    · subst he
      exact ⟨_, h.new, rfl, rfl, rfl, rfl, hl, fun _ => by rw [h.mem]⟩
    · obtain ⟨q', h1, h2, h3, h4, h5, h6, h7⟩ := t.req e he
      obtain ⟨h8, h9⟩ := h.keep h1
      exact ⟨q', h9, h2, h3, h4, h5, h6, fun hp => by rw [h.mem]; exact h7 (h.pending h8 hp)⟩
  · rw [List.pairwise_cons]
    refine ⟨fun e he => ?_, t.ord.imp (fun ha => h.aft ha)⟩
    obtain ⟨q', h1, h2, h3, _⟩ := t.req e he
    have := hreq _ _ h1
    rw [h3] at this
    exact Aft.push h.ids this
  · intro e he y q' h1 h2 h3 h4 h5
    rcases List.mem_cons.1 he with he | he
    · subst he; exact absurd h1 (hlast y)
    · by_cases hy : y = x
      · subst hy; exact .inl ⟨_, List.mem_cons_self, rfl⟩
      · rw [h.old y hy] at h2
        rcases t.sep e he y q' (h.aft' h1 hy) h2 h3 h4 (fun r hr => by cases hr) with ⟨e', g1, g2⟩ | g
        · exact .inl ⟨e', List.mem_cons_of_mem _ g1, g2⟩
        · exact .inr g
  · intro e he h1 h2 h3 i hi
    rcases List.mem_cons.1 he with he | he
    · subst he; exact absurd h1 hxs
    · rw [h.served] at h1
      rw [h.failed] at h2
      rw [h.files]
      refine t.val e he h1 h2 (fun e' he' ha => ?_) i hi
      have := h3 e' (List.mem_cons_of_mem _ he') (h.aft ha)
      rwa [h.served] at this
  · intro r hr; cases hr
  · intro r hr; cases hr

/-- A read of the block is submitted. -/
theorem Track.read {s s' : St} {d o z : Nat} {L : List Wrote} (t : Track k qid s d o z L none) {x buf : Nat}
    (h : Pushed qid s s' x ⟨d, false, o, z, buf⟩) (hsub : ∀ i y w, (y, w) ∈ (s.qs i).sub → y ≠ x)
    (hreq : ∀ y q, s.reqs y = some q → y ∈ (s.qs (qid q.disk)).sub.map (·.1)) : Track k qid s' d o z L (some x) := by
  have hns : ∀ i y, y ∈ (s.qs i).sub.map (·.1) → y ≠ x := by
    intro i y hy
    obtain ⟨⟨y', w⟩, h1, h2⟩ := List.mem_map.1 hy
    simp only at h2; subst h2
    exact hsub i _ w h1
  have t' := t.push h hsub (fun hw => by cases hw)
  refine ⟨t'.req, t'.ord, ?_, t'.val, ?_, ?_⟩
  · intro e he y q' h1 h2 h3 h4 _
    exact t'.sep e he y q' h1 h2 h3 h4 (fun r hr => by cases hr)
  · intro r hr hk y q' h1 h2 h3 h4
    injection hr with hr; subst hr
    exfalso
    by_cases hy : y = x
    · subst hy
      rw [h.new] at h2
      injection h2 with h2; subst h2
      cases h3
    · exact hns _ _ (h.aft' h1 hy).left rfl
  · intro r hr e he
    injection hr with hr; subst hr
    obtain ⟨q', h1, h2, h3, _⟩ := t.req e he
    have := hreq _ _ h1
    rw [h3] at this
    exact Aft.push h.ids this

/-- The worker of a queue finishes with request `x`. -/
structure Served (qid : Nat → Nat) (s s' : St) (x : Nat) (q : Req) : Prop where
  mid : ∃ s1, Moved s s1 x q ∧ s'.m = s1.m ∧ s'.files = s1.files ∧ s'.reqs = s1.reqs ∧ s'.mem = s1.mem ∧ s'.failed = s1.failed
  req : s.reqs x = some q
  sub : ∀ i, (s'.qs i).sub = (s.qs i).sub
  cancelled : ∀ i, (s'.qs i).cancelled = (s.qs i).cancelled
  served : (s'.qs (qid q.disk)).served = (s.qs (qid q.disk)).served ++ [x]
  served' : ∀ i, i ≠ qid q.disk → (s'.qs i).served = (s.qs i).served
  now : x ∈ (s.qs (qid q.disk)).started
  not : x ∉ (s.qs (qid q.disk)).served
  nc : x ∉ (s.qs (qid q.disk)).cancelled

theorem Served.pending {s s' : St} {x : Nat} {q : Req} (h : Served qid s s' x q) : Pending qid s x := ⟨q, h.req, h.not, h.nc⟩

theorem Served.mem_served {s s' : St} {x : Nat} {q : Req} (h : Served qid s s' x q) {i y : Nat} (hy : y ∈ (s.qs i).served) : y ∈ (s'.qs i).served := by
  by_cases e : i = qid q.disk
  · subst e; rw [h.served]; simp [hy]
  · rw [h.served' i e]; exact hy

theorem Served.after {s s' : St} {x : Nat} {q : Req} (h : Served qid s s' x q) {y : Nat} (hp : Pending qid s' y) : Pending qid s y ∧ y ≠ x := by
  obtain ⟨s1, hm, _, _, hr, _⟩ := h.mid
  obtain ⟨q', h1, h2, h3⟩ := hp
  rw [hr, hm.reqs] at h1
  refine ⟨⟨q', h1, fun hc => h2 (h.mem_served hc), by rwa [h.cancelled] at h3⟩, ?_⟩
  intro e; subst e
  rw [h.req] at h1
  injection h1 with h1; subst h1
  exact h2 (by rw [h.served]; simp)

theorem Track.serve {s s' : St} {d o z : Nat} {L : List Wrote} {stop : Option Nat} (t : Track k qid s d o z L stop) {x : Nat} {q : Req}
    (h : Served qid s s' x q) {C : Queue.St → Queue.Op → Prop} (hreach : ∀ i, Queue.Reach k C (s.qs i))
    (hreq : ∀ y q, s.reqs y = some q → (y, q.write) ∈ (s.qs (qid q.disk)).sub)
    (hown : ∀ y q', Pending qid s y → s.reqs y = some q' → q.write = false → q.buf = q'.buf → x = y)
    (hstop : ∀ r, stop = some r → Pending qid s r ∧ r ≠ x ∧ ∃ q', s.reqs r = some q' ∧ q'.disk = d) : Track k qid s' d o z L stop := by
  have ha : ∀ w x, Aft (s'.qs (qid d)) w x ↔ Aft (s.qs (qid d)) w x := by
    intro w x; unfold Aft; rw [h.sub]
  have hpen := h.pending
  have haf := fun y => @Served.after qid s s' x q h y
  obtain ⟨s1, hm, -, hf1, hr1, hm1, hfl1⟩ := h.mid
  have hreqs : s'.reqs = s.reqs := by rw [hr1, hm.reqs]
  constructor
  · intro e he
    obtain ⟨q', h1, h2, h3, h4, h5, h6, h7⟩ := t.req e he
    refine ⟨q', by rw [hreqs]; exact h1, h2, h3, h4, h5, h6, fun hp => ?_⟩
    obtain ⟨g1, g2⟩ := haf _ hp
    rw [hm1, ← h7 g1]
    by_cases hw : q.write = true
    · rw [hm.wr hw]
    · refine hm.bufs _ (fun e2 => g2 ?_)
      exact (hown _ _ g1 h1 (by simpa using hw) e2.symm).symm
  · simp only [ha]; exact t.ord
  · intro e he y q' h1 h2 h3 h4 h5
    rw [hreqs] at h2
    exact t.sep e he y q' ((ha _ _).1 h1) h2 h3 h4 (fun r hr => (ha _ _).1 (h5 r hr))
  · intro e he h1 h2 h3 i hi
    rw [hf1]
    obtain ⟨q', g1, g2, g3, g4, g5, g6, g7⟩ := t.req e he
    by_cases hex : e.r = x
    · rw [hex, h.req] at g1
      injection g1 with g1; subst g1
      have := hm.put g2 (by rw [← hex, ← hfl1]; exact h2) i (by omega)
      rw [g3, g4] at this
      rw [this, g7 (by rw [hex]; exact hpen)]
    · have hold : e.r ∈ (s.qs (qid d)).served := by
        by_cases ed : qid d = qid q.disk
        · rw [ed, h.served] at h1
          rw [ed]
          simp only [List.mem_append, List.mem_singleton] at h1
          rcases h1 with h1 | h1
          · exact h1
          · exact absurd h1 hex
        · rw [h.served' _ ed] at h1; exact h1
      have hv := t.val e he hold (fun hc => h2 (by rw [hfl1]; exact hm.fail _ hc))
        (fun e' he' hc hs => h3 e' he' ((ha _ _).2 hc) (h.mem_served hs)) i hi
      rw [← hv]
      by_cases ed : d = q.disk
      · subst ed
        by_cases hw : q.write = true
        · have hxs := hreq _ _ h.req
          have hes := hreq _ _ g1
          rw [g3] at hes
          have hap : Apart q.off q.size o z := by
            rcases Aft.total (List.mem_map.2 ⟨_, hes, rfl⟩) (List.mem_map.2 ⟨_, hxs, rfl⟩) with hc | hc | hc
            · exact absurd hc hex
            · -- the write was submitted later
              have key : (∀ r, stop = some r → Aft (s.qs (qid q.disk)) x r) ∨ Apart q.off q.size o z := by
                cases hst : stop with
                | none => exact .inl (fun r hr => by cases hr)
                | some r =>
                  obtain ⟨p1, p2, q2, p3, p4⟩ := hstop r hst
                  have hrs := hreq _ _ p3
                  rw [p4] at hrs
                  rcases Aft.total (List.mem_map.2 ⟨_, hrs, rfl⟩) (List.mem_map.2 ⟨_, hxs, rfl⟩) with hd | hd | hd
                  · exact absurd hd p2
                  · cases hk : k with
                    | oneQ =>
                      exfalso
                      obtain ⟨q3, p5, p6, p7⟩ := p1
                      rw [p3] at p5
                      injection p5 with p5; subst p5
                      rw [p4] at p6 p7
                      exact p6 (order_same (hreach _) hd hxs hrs (.inl hk) p7 h.now)
                    | twoQ => exact .inr (t.fin r hst hk x q hd h.req hw rfl)
                  · refine .inl (fun r' hr' => ?_)
                    injection hr' with hr'; subst hr'; exact hd
              rcases key with key | key
              · rcases t.sep e he x q hc h.req hw rfl key with ⟨e', m1, m2⟩ | hap
                · exfalso
                  refine h3 e' m1 ((ha _ _).2 (by rw [m2]; exact hc)) ?_
                  rw [h.served, m2]; simp
                · exact hap
              · exact key
            · -- the write was submitted earlier, so the other one is not served
              exfalso
              have ho := Queue.reach_ord (hreach (qid q.disk))
              have hst : e.r ∈ (s.qs (qid q.disk)).started := by rw [ho.srv]; simp [hold]
              exact h.not (order_same (hreach _) hc hes hxs (.inr ⟨hw, g2⟩) h.nc hst)
          apply hm.out
          unfold Apart at hap
          omega
        · rw [hm.rd (by simpa using hw)]
      · rw [hm.other d ed]
  · intro r hr hk y q' h1 h2 h3 h4
    rw [hreqs] at h2
    exact t.fin r hr hk y q' ((ha _ _).1 h1) h2 h3 h4
  · intro r hr e he
    exact (ha _ _).2 (t.stp r hr e he)

/-- The value of the range once the latest write that is not canceled is served. -/
theorem Track.last_val {s : St} {d o z : Nat} {L : List Wrote} {stop : Option Nat} (t : Track k qid s d o z L stop)
    {C : Queue.St → Queue.Op → Prop} (hreach : Queue.Reach k C (s.qs (qid d))) {e : Wrote} (hl : last (s.qs (qid d)).cancelled L = some e)
    (hs : e.r ∈ (s.qs (qid d)).served) (hf : e.r ∉ s.failed) : ∀ i, i < z → (s.files d).byte (o + i) = e.data.getD i 0 := by
  have ho := Queue.reach_ord hreach
  unfold last at hl
  obtain ⟨h1, as, bs, h2, h3⟩ := List.find?_eq_some_iff_append.1 hl
  refine t.val e (by rw [h2]; simp) hs hf (fun e' he' ha hs' => ?_)
  rw [h2] at he'
  simp only [List.mem_append, List.mem_cons] at he'
  rcases he' with he' | he' | he'
  · have hc := h3 e' he'
    simp at hc
    have : e'.r ∈ Queue.due (s.qs (qid d)) := (Queue.due_perm ho).mem_iff.2 (by rw [ho.srv]; simp [hs'])
    simp [Queue.due] at this
    exact this.2 hc
  · subst he'; exact Aft.irrefl ho.nodup ha
  · have := t.ord
    rw [h2, List.pairwise_append, List.pairwise_cons] at this
    exact ha.asymm ho.nodup (this.2.1.1 e' he')

end Foxxll.Store
