import Verif.Proofs.StoreRun
/-
What stays in later steps; reads in the presence of cancellations.
-/
namespace Foxxll.Store
open Foxxll

variable {k : Queue.Kind} {qid : Nat → Nat} {cfgs : List (Nat × Bool)} {C : Queue.St → Queue.Op → Prop}

/-- What stays from one state to a later one. -/
structure Keep (s s' : St) : Prop where
  served : ∀ i, ∀ x ∈ (s.qs i).served, x ∈ (s'.qs i).served
  cancelled : ∀ i, ∀ x ∈ (s.qs i).cancelled, x ∈ (s'.qs i).cancelled
  reqs : ∀ x q, s.reqs x = some q → s'.reqs x = some q

theorem Keep.rfl {s : St} : Keep s s := ⟨fun _ _ h => h, fun _ _ h => h, fun _ _ h => h⟩

theorem Keep.trans {a b c : St} (h : Keep a b) (h' : Keep b c) : Keep a c :=
  ⟨fun i x hx => h'.served i x (h.served i x hx), fun i x hx => h'.cancelled i x (h.cancelled i x hx), fun x q hx => h'.reqs x q (h.reqs x q hx)⟩

theorem keep_queue {s s' : St} {i : Nat} {op : Queue.Op} (h : s.queue k i op = some s')
    (hq : ∀ q, Queue.step k (s.qs i) op = .ok q → (∀ x ∈ (s.qs i).served, x ∈ q.served) ∧ ∀ x ∈ (s.qs i).cancelled, x ∈ q.cancelled) : Keep s s' := by
  obtain ⟨q, h1, h2⟩ := queue_some h
  subst h2
  obtain ⟨g1, g2⟩ := hq q h1
  refine ⟨fun j => ?_, fun j => ?_, fun _ _ h => h⟩
  · exact upd_cases (P := fun j (a : Queue.St) => ∀ x ∈ (s.qs j).served, x ∈ a.served) g1 (fun _ _ h => h) j
  · exact upd_cases (P := fun j (a : Queue.St) => ∀ x ∈ (s.qs j).cancelled, x ∈ a.cancelled) g2 (fun _ _ h => h) j

theorem Quiet.keep {q q' : Queue.St} (h : Quiet q q') : (∀ x ∈ q.served, x ∈ q'.served) ∧ ∀ x ∈ q.cancelled, x ∈ q'.cancelled :=
  ⟨fun x hx => by rw [h.served]; exact hx, h.cancelled⟩

theorem serve_qs (s : St) (r : Nat) (os : Nat → Files.Sys) : (s.serve r os).qs = s.qs := by
  unfold St.serve
  split
  · rfl
  · (repeat' split) <;> rfl

theorem step_keep {s s' : St} {op : Op} (ha : Allowed k qid s op) (hs : step k qid s op = some s') : Keep s s' := by
  cases op with
  | mgr op =>
    simp only [Store.step] at hs
    injection hs with hs; subst hs
    exact ⟨fun _ _ h => h, fun _ _ h => h, fun _ _ h => h⟩
  | fill buf data =>
    simp only [Store.step] at hs
    injection hs with hs; subst hs
    exact ⟨fun _ _ h => h, fun _ _ h => h, fun _ _ h => h⟩
  | io r w b buf =>
    simp only [Store.step] at hs
    split at hs
    · rename_i d hd
      have K : Keep s { s with reqs := upd s.reqs r (some ⟨d, w, b.off, b.size, buf⟩) } := by
        refine ⟨fun _ _ h => h, fun _ _ h => h, fun x q hx => ?_⟩
        by_cases e : x = r
        · subst e; rw [ha.1] at hx; cases hx
        · show upd s.reqs r _ x = some q
          rw [upd_other _ _ e]; exact hx
      refine K.trans (keep_queue hs (fun q hq => ?_))
      obtain ⟨p1, p2, p3, p4⟩ := push_some hq
      rw [p2, p3]; exact ⟨fun _ h => h, fun _ h => h⟩
    · cases hs
  | cancel r =>
    simp only [Store.step] at hs
    split at hs
    · exact keep_queue hs (fun q hq => Quiet.keep (cancel_quiet hq))
    · cases hs
  | run i qop os =>
    cases qop with
    | signal => exact keep_queue hs (fun q hq => Quiet.keep (signal_quiet hq))
    | cancelTake => exact keep_queue hs (fun q hq => Quiet.keep (cancelTake_quiet hq))
    | work =>
      simp only [Store.step] at hs
      have K : Keep s (s.transfer i os) := by
        unfold St.transfer
        split
        · exact ⟨fun _ _ h => by rw [serve_qs]; exact h, fun _ _ h => by rw [serve_qs]; exact h, fun _ _ h => by rw [serve_reqs]; exact h⟩
        · exact Keep.rfl
      refine K.trans (keep_queue hs (fun q hq => ?_))
      by_cases hw : ∃ x, ((s.transfer i os).qs i).wpc = .serving x
      · obtain ⟨x, hw⟩ := hw
        rw [work_serving hw hq]
        exact ⟨fun _ h => by simp [h], fun _ h => h⟩
      · exact Quiet.keep (work_quiet (fun x hx => hw ⟨x, hx⟩) hq)
    | _ => simp [Store.step] at hs

theorem Later.keep {s s' : St} {h h' : Hist} (hl : Later k qid s h s' h') : Keep s s' := by
  induction hl with
  | here => exact Keep.rfl
  | next op _ ha hs ih => exact ih.trans (step_keep ha hs)

/-- What a read has seen does not change later. -/
theorem Later.seen {s s' : St} {h h' : Hist} (hl : Later k qid s h s' h') {r : Nat} {q : Req} (hr : s.reqs r = some q) : h'.seen r = h.seen r := by
  induction hl with
  | here => rfl
  | @next t t' g op hl' ha hs ih =>
    rw [← ih]
    cases op with
    | io x w b buf =>
      cases w with
      | true => rfl
      | false =>
        have : r ≠ x := by
          intro e; subst e
          have := hl'.keep.reqs r q hr
          rw [ha.1] at this; cases this
        simp [Hist.next, upd_other _ _ this]
    | mgr op => cases op <;> rfl
    | _ => rfl

theorem Later.life {s s' : St} {h h' : Hist} (h0 : Life k qid cfgs (fun _ => True) s h) (hl : Later k qid s h s' h') : Life k qid cfgs (fun _ => True) s' h' := by
  induction hl with
  | here => exact h0
  | next op _ ha hs ih => exact .next op ih ha trivial hs

/-- The read that is served returns what was written last, if that is served. -/
theorem InvC.read {s s' : St} {h : Hist} (I : InvC C k qid cfgs s h) {i r : Nat} {q : Req} {e : Wrote} {os : Nat → Files.Sys}
    (hw : (s.qs i).wpc = .serving r) (hq : s.reqs r = some q) (hr : q.write = false)
    (hs : Store.step k qid s (.run i .work os) = some s') (hf : r ∉ s'.failed) (he : last (s.qs i).cancelled (h.seen r) = some e)
    (hsv : e.r ∈ (s.qs i).served) (hef : e.r ∉ s.failed) : s'.mem q.buf = e.data := by
  obtain ⟨q1, g1, g2, g3, g4, g5⟩ := I.serving hw
  rw [hq] at g1; injection g1 with g1; subst g1
  have hpen : Pending qid s r := ⟨q, hq, by rw [g2]; exact g4, by rw [g2]; exact g5⟩
  obtain ⟨ht, _⟩ := I.rd r q hpen hq hr
  rw [← g2] at he g3 g4 hsv
  have hem : e ∈ h.seen r := List.mem_of_find?_eq_some he
  obtain ⟨q2, p1, p2, p3, p4, p5, p6, p7⟩ := ht.req e hem
  have hv := ht.last_val (I.que _) he hsv hef
  simp only [Store.step] at hs
  obtain ⟨q', h1, h2⟩ := queue_some hs
  have et : s.transfer i os = s.serve r os := by unfold St.transfer; rw [hw]
  rw [et] at h1 h2
  have hf' : r ∉ (s.serve r os).failed := by rw [h2] at hf; exact hf
  have hm : s'.mem q.buf = (s.serve r os).mem q.buf := by rw [h2]
  have hM := serve_moved os hq (I.buf r q hpen hq) (I.tail q.disk)
  rw [hm]
  have hlen : ((s.serve r os).mem q.buf).length = q.size := by rw [hM.len]; exact I.buf r q hpen hq
  apply List.ext_getElem (by rw [hlen, p6])
  intro j h3 h4
  have h5 := hM.get hr hf' j (by omega)
  rw [hv j (by omega)] at h5
  rw [List.getD_eq_getElem?_getD, List.getD_eq_getElem?_getD, List.getElem?_eq_getElem h3, List.getElem?_eq_getElem h4] at h5
  exact h5

/-- A read submitted when no write of the block is pending: at its service, the last write that was not canceled is served. -/
theorem wait_served {s0 s1 s : St} {h0 h : Hist} {i r buf d : Nat} {b : Mgr.Bid} {e : Wrote}
    (I0 : InvC (fun _ _ => True) k qid cfgs s0 h0) (I : InvC (fun _ _ => True) k qid cfgs s h)
    (ha : Allowed k qid s0 (.io r false b buf)) (hd : b.storage = .managed d) (hi : qid d = i)
    (hn : ∀ x q, Pending qid s0 x → s0.reqs x = some q → q.write = true → ¬ q.On b)
    (h1 : step k qid s0 (.io r false b buf) = some s1) (hla : Later k qid s1 (h0.next s0 (.io r false b buf)) s h)
    (he : last (s0.qs i).cancelled (h0.of b) = some e) :
    last (s.qs i).cancelled (h.seen r) = some e ∧ e.r ∈ (s.qs i).served ∧ s.reqs r = some ⟨d, false, b.off, b.size, buf⟩ := by
  subst hi
  have hq1 : s1.reqs r = some ⟨d, false, b.off, b.size, buf⟩ := by
    simp only [Store.step, hd] at h1
    obtain ⟨q', _, h2⟩ := queue_some h1
    subst h2
    exact upd_same _ _ _
  have hseen : h.seen r = h0.of b := by
    rw [hla.seen hq1]; simp [Hist.next, upd_same]
  have K : Keep s0 s := (step_keep ha h1).trans hla.keep
  have hem : e ∈ h0.of b := List.mem_of_find?_eq_some he
  obtain ⟨q2, p1, p2, p3, p4, p5, _⟩ := (I0.trk b ha.2.1 d hd).req e hem
  have hnc : e.r ∉ (s0.qs (qid d)).cancelled := by
    have := List.find?_some he
    simpa using this
  have hsv : e.r ∈ (s0.qs (qid d)).served := by
    by_cases hc : e.r ∈ (s0.qs (qid d)).served
    · exact hc
    · exact absurd ⟨by rw [p3]; exact hd, by rw [p4], by rw [p5]⟩ (hn e.r q2 ⟨q2, p1, by rw [p3]; exact hc, by rw [p3]; exact hnc⟩ p1 p2)
  refine ⟨?_, K.served _ _ hsv, hla.keep.reqs _ _ hq1⟩
  rw [hseen]
  unfold last at he ⊢
  obtain ⟨g1, as, bs, g2, g3⟩ := List.find?_eq_some_iff_append.1 he
  refine List.find?_eq_some_iff_append.2 ⟨?_, as, bs, g2, fun a ha' => ?_⟩
  · have ho := Queue.reach_ord (I.que (qid d))
    have hs' := K.served _ _ hsv
    have : e.r ∈ Queue.due (s.qs (qid d)) := (Queue.due_perm ho).mem_iff.2 (by rw [ho.srv]; simp [hs'])
    simp [Queue.due] at this
    simpa using this.2
  · have := g3 a ha'
    simp at this
    have := K.cancelled _ _ this
    simpa using this

/-! ### Runs with a marked step -/

/-- The requests made by the end of a run. -/
def idsAfter : List Nat → List Op → List Nat
  | ids, [] => ids
  | ids, op :: ops => idsAfter (op.ids ++ ids) ops

theorem runB_ids {pB : Op → Bool} {s s' : St} {h h' : Hist} {ids : List Nat} {ops : List Op} (hi : ∀ r, s.reqs r ≠ none → r ∈ ids)
    (hr : runB k qid pB s h ids ops = some (s', h')) : ∀ r, s'.reqs r ≠ none → r ∈ idsAfter ids ops := by
  induction ops generalizing s h ids with
  | nil =>
    simp only [runB, Option.some.injEq, Prod.mk.injEq] at hr
    rw [← hr.1]; exact hi
  | cons op ops ih =>
    simp only [runB] at hr
    split at hr
    · split at hr
      · rename_i s1 hs
        exact ih (step_ids hi hs) hr
      · cases hr
    · cases hr

theorem runB_later {pB : Op → Bool} {s s' : St} {h h' : Hist} {ids : List Nat} {ops : List Op} (hi : ∀ r, s.reqs r ≠ none → r ∈ ids)
    (hr : runB k qid pB s h ids ops = some (s', h')) {s0 : St} {h0 : Hist} (hl : Later k qid s0 h0 s h) : Later k qid s0 h0 s' h' := by
  induction ops generalizing s h ids with
  | nil =>
    simp only [runB, Option.some.injEq, Prod.mk.injEq] at hr
    rw [← hr.1, ← hr.2]; exact hl
  | cons op ops ih =>
    simp only [runB] at hr
    split at hr
    · rename_i hb
      simp only [Bool.and_eq_true] at hb
      split at hr
      · rename_i s1 hs
        exact ih (step_ids hi hs) hr (Later.next op hl (allowedB_of hi hb.1) hs)
      · cases hr
    · cases hr

def run2 (k : Queue.Kind) (qid : Nat → Nat) (pB : Op → Bool) (ops1 : List Op) (op : Op) (ops2 : List Op) (p0 p : St → Hist → Bool) (s : St) : Option Bool :=
  (runB k qid pB s ⟨[], fun _ => []⟩ [] ops1).bind fun x =>
    if allowedB k qid x.1 (idsAfter [] ops1) op && pB op && p0 x.1 x.2 then
      (step k qid x.1 op).bind fun s1 => (runB k qid pB s1 (x.2.next x.1 op) (op.ids ++ idsAfter [] ops1) ops2).map fun y => p y.1 y.2
    else none

theorem witness2 (pB : Op → Bool) (mem : Nat → List UInt8) (ops1 : List Op) (op : Op) (ops2 : List Op) (p0 p : St → Hist → Bool)
    (hp : ((start cfgs mem).bind fun s => run2 k qid pB ops1 op ops2 p0 p s) = some true) :
    ∃ s0 h0 s1 s h, Life k qid cfgs (fun _ => True) s0 h0 ∧ (∀ r, s0.reqs r ≠ none → r ∈ idsAfter [] ops1) ∧ Allowed k qid s0 op ∧ p0 s0 h0 = true ∧ step k qid s0 op = some s1 ∧
      Later k qid s1 (h0.next s0 op) s h ∧ p s h = true := by
  obtain ⟨s, hs, h1⟩ := Option.bind_eq_some_iff.1 hp
  unfold run2 at h1
  obtain ⟨⟨s0, h0⟩, h2, h3⟩ := Option.bind_eq_some_iff.1 h1
  split at h3
  · rename_i hb
    simp only [Bool.and_eq_true] at hb
    obtain ⟨s1, h4, h5⟩ := Option.bind_eq_some_iff.1 h3
    obtain ⟨⟨t, g⟩, h6, h7⟩ := Option.map_eq_some_iff.1 h5
    unfold start at hs
    split at hs
    · rename_i m hm
      injection hs with hs; subst hs
      have hi0 : ∀ r, (init m (fun _ => Files.emptyFile) mem).reqs r ≠ none → r ∈ ([] : List Nat) := fun r hr => by simp [init] at hr
      have hl := runB_life (fun _ _ => trivial) (Life.start hm (fun _ _ _ => rfl)) hi0 h2
      have hi := runB_ids hi0 h2
      exact ⟨s0, h0, s1, t, g, hl, hi, allowedB_of hi hb.1.1, hb.2, h4, runB_later (step_ids hi h4) h6 .here, h7⟩
    · cases hs
  · cases h3

end Foxxll.Store
