import Verif.Spec.StreamStore
import Verif.Proofs.StoreRun
/-
What one step of the store can change.
-/
namespace Foxxll.Store
open Foxxll

variable {k : Queue.Kind} {qid : Nat → Nat} {cfgs : List (Nat × Bool)}

structure Eff (qid : Nat → Nat) (d d' : St) (op : Op) : Prop where
  req : ∀ r q, d.reqs r = some q → d'.reqs r = some q
  new : ∀ r q, d'.reqs r = some q → d.reqs r = some q ∨
    ∃ w b buf, op = .io r w b buf ∧ b.storage = .managed q.disk ∧ q = ⟨q.disk, w, b.off, b.size, buf⟩
  srv : ∀ i r, r ∈ (d.qs i).served → r ∈ (d'.qs i).served
  can : ∀ i r, r ∈ (d.qs i).cancelled → r ∈ (d'.qs i).cancelled
  can' : ∀ i r, r ∈ (d'.qs i).cancelled → r ∈ (d.qs i).cancelled ∨ op = .cancel r
  fail : ∀ r ∈ d'.failed, r ∈ d.failed ∨ (Pending qid d r ∧ ¬ Pending qid d' r)
  fail' : ∀ r ∈ d.failed, r ∈ d'.failed
  live : ∀ b ∈ d.m.live, b ∈ d'.m.live ∨ op = .mgr (.delete b)
  mem : ∀ buf, d'.mem buf = d.mem buf ∨ (∃ data, op = .fill buf data ∧ d'.mem buf = data) ∨
    ((d'.mem buf).length = (d.mem buf).length ∧ ∃ i r q os, op = .run i .work os ∧ (d.qs i).wpc = .serving r ∧ d.reqs r = some q ∧
      Pending qid d r ∧ ¬ Pending qid d' r ∧ q.write = false ∧ q.buf = buf)
  srv' : ∀ i r, r ∈ (d'.qs i).served → r ∈ (d.qs i).served ∨ ∃ os, op = .run i .work os ∧ (d.qs i).wpc = .serving r

/-- Steps of a queue that serve nothing. -/
theorem eff_quiet {d : St} {i : Nat} {q : Queue.St} {op : Op} (hq : Quiet (d.qs i) q)
    (hc : ∀ r ∈ q.cancelled, r ∈ (d.qs i).cancelled ∨ op = .cancel r) : Eff qid d { d with qs := upd d.qs i q } op where
  req := fun _ _ h => h
  new := fun _ _ h => .inl h
  srv := by
    intro j r h
    have : (upd d.qs i q j).served = (d.qs j).served := upd_cases (P := fun j (a : Queue.St) => a.served = (d.qs j).served) hq.served (fun _ => rfl) j
    show r ∈ (upd d.qs i q j).served
    rw [this]; exact h
  can := upd_cases (P := fun j (a : Queue.St) => ∀ x, x ∈ (d.qs j).cancelled → x ∈ a.cancelled) (fun x h => hq.cancelled x h) (fun _ _ h => h)
  can' := upd_cases (P := fun j (a : Queue.St) => ∀ x, x ∈ a.cancelled → x ∈ (d.qs j).cancelled ∨ op = .cancel x) (fun x h => hc x h) (fun _ _ h => .inl h)
  fail := fun _ h => .inl h
  fail' := fun _ h => h
  live := fun _ h => .inl h
  mem := fun _ => .inl rfl
  srv' := by
    intro j r h
    have : (upd d.qs i q j).served = (d.qs j).served := upd_cases (P := fun j (a : Queue.St) => a.served = (d.qs j).served) hq.served (fun _ => rfl) j
    change r ∈ (upd d.qs i q j).served at h
    rw [this] at h; exact .inl h

theorem serve_failed {s : St} {x : Nat} {os : Nat → Files.Sys} : ∀ r ∈ (s.serve x os).failed, r ∈ s.failed ∨ r = x := by
  intro r h
  unfold St.serve at h
  split at h
  · exact .inl h
  · split at h
    · split at h
      · exact .inl h
      · simp only [List.mem_cons] at h; rcases h with h | h
        · exact .inr h
        · exact .inl h
      · exact .inl h
    · split at h
      · exact .inl h
      · simp only [List.mem_cons] at h; rcases h with h | h
        · exact .inr h
        · exact .inl h
      · exact .inl h

theorem cancel_cancelled {q q' : Queue.St} {r : Nat} {w : Bool} (h : Queue.step k q (.cancel r w) = .ok q') :
    ∀ x ∈ q'.cancelled, x ∈ q.cancelled ∨ x = r := by
  simp only [Queue.step, Queue.cancel] at h
  repeat' split at h
  all_goals first
    | (cases h; done)
    | skip
  all_goals
    injection h with h; subst h
    intro x hx
    first
      | (simp only [List.mem_append, List.mem_singleton] at hx; exact hx)
      | exact .inl hx

theorem work_cancelled {q q' : Queue.St} (h : Queue.step k q .work = .ok q') : q'.cancelled = q.cancelled := by
  simp only [Queue.step, Queue.work] at h
  repeat' split at h
  all_goals first
    | (cases h; done)
    | skip
  all_goals
    injection h with h; subst h; rfl

theorem step_eff {d d' : St} {h : Hist} (I : Inv k qid cfgs d h) {op : Op} (ha : Allowed k qid d op) (hs : step k qid d op = some d') :
    Eff qid d d' op := by
  cases op with
  | mgr op =>
    simp only [Store.step] at hs
    injection hs with hs; subst hs
    refine ⟨fun _ _ h => h, fun _ _ h => .inl h, fun _ _ h => h, fun _ _ h => h, fun _ _ h => .inl h, fun _ h => .inl h, fun _ h => h, ?_, fun _ => .inl rfl, fun _ _ h => .inl h⟩
    intro b hb
    cases op with
    | new f o out => exact .inl (new_live hb)
    | delete c =>
      by_cases e : b = c
      · subst e; exact .inr rfl
      · exact .inl (delete_live hb e)
  | fill buf data =>
    simp only [Store.step] at hs
    injection hs with hs; subst hs
    refine ⟨fun _ _ h => h, fun _ _ h => .inl h, fun _ _ h => h, fun _ _ h => h, fun _ _ h => .inl h, fun _ h => .inl h, fun _ h => h, fun _ h => .inl h, ?_, fun _ _ h => .inl h⟩
    intro b
    by_cases e : b = buf
    · subst e; exact .inr (.inl ⟨data, rfl, by simp [upd]⟩)
    · exact .inl (by simp [upd, e])
  | io r w b buf =>
    simp only [Store.step] at hs
    split at hs
    · rename_i dk hd
      obtain ⟨q, h1, h2⟩ := queue_some hs
      obtain ⟨p1, p2, p3, p4⟩ := push_some h1
      subst h2
      have hne : ∀ x q, d.reqs x = some q → x ≠ r := by
        intro x q hx e; subst e; rw [ha.1] at hx; cases hx
      refine ⟨?_, ?_, ?_, ?_, ?_, fun _ h => .inl h, fun _ h => h, fun _ h => .inl h, fun _ => .inl rfl, ?_⟩
      · intro x q hx
        show upd d.reqs r _ x = _
        rw [upd_other _ _ (hne x q hx)]; exact hx
      · intro x q hx
        change upd d.reqs r _ x = some q at hx
        by_cases e : x = r
        · subst e
          rw [upd_same] at hx; injection hx with hx; subst hx
          exact .inr ⟨w, b, buf, rfl, hd, rfl⟩
        · rw [upd_other _ _ e] at hx; exact .inl hx
      · exact upd_cases (P := fun j (a : Queue.St) => ∀ x, x ∈ (d.qs j).served → x ∈ a.served) (fun x h => by rw [p2]; exact h) (fun _ _ h => h)
      · exact upd_cases (P := fun j (a : Queue.St) => ∀ x, x ∈ (d.qs j).cancelled → x ∈ a.cancelled) (fun x h => by rw [p3]; exact h) (fun _ _ h => h)
      · exact upd_cases (P := fun j (a : Queue.St) => ∀ x, x ∈ a.cancelled → x ∈ (d.qs j).cancelled ∨ Op.io r w b buf = .cancel x)
          (fun x h => by rw [p3] at h; exact .inl h) (fun _ _ h => .inl h)
      · exact upd_cases (P := fun j (a : Queue.St) => ∀ x, x ∈ a.served → x ∈ (d.qs j).served ∨ ∃ os, Op.io r w b buf = .run j .work os ∧ (d.qs j).wpc = .serving x)
          (fun x h => by rw [p2] at h; exact .inl h) (fun _ _ h => .inl h)
    · cases hs
  | cancel r =>
    simp only [Store.step] at hs
    split at hs
    · rename_i q hq
      obtain ⟨q', h1, h2⟩ := queue_some hs
      subst h2
      refine eff_quiet (cancel_quiet h1) ?_
      intro x hx
      rcases cancel_cancelled h1 x hx with h | h
      · exact .inl h
      · subst h; exact .inr rfl
    · cases hs
  | run i qop os =>
    cases qop with
    | signal =>
      simp only [Store.step] at hs
      obtain ⟨q', h1, h2⟩ := queue_some hs
      subst h2
      refine eff_quiet (signal_quiet h1) ?_
      intro x hx
      simp only [Queue.step] at h1
      split at h1
      · cases h1
      · injection h1 with h1; subst h1; exact .inl hx
    | cancelTake =>
      simp only [Store.step] at hs
      obtain ⟨q', h1, h2⟩ := queue_some hs
      subst h2
      refine eff_quiet (cancelTake_quiet h1) ?_
      intro x hx
      simp only [Queue.step] at h1
      split at h1
      · cases h1
      · injection h1 with h1; subst h1; exact .inl hx
    | work =>
      simp only [Store.step] at hs
      obtain ⟨q', h1, h2⟩ := queue_some hs
      subst h2
      by_cases hw : ∃ x, (d.qs i).wpc = .serving x
      · obtain ⟨x, hw⟩ := hw
        have e : d.transfer i os = d.serve x os := by unfold St.transfer; rw [hw]
        rw [e] at h1 ⊢
        obtain ⟨q, g1, g2, hM, hS, _⟩ := I.serve calm_mild hw os h1
        have hsrv : x ∈ (upd (d.serve x os).qs i q' (qid q.disk)).served := by
          have := hS.served
          show x ∈ (({ d.serve x os with qs := upd (d.serve x os).qs i q' } : St).qs (qid q.disk)).served
          rw [this]; simp
        have hnp : ¬ Pending qid { d.serve x os with qs := upd (d.serve x os).qs i q' } x := by
          rintro ⟨q2, p1, p2, _⟩
          change (d.serve x os).reqs x = some q2 at p1
          rw [hM.reqs, g1] at p1; injection p1 with p1; subst p1
          exact p2 hsrv
        refine ⟨?_, ?_, ?_, ?_, ?_, ?_, hM.fail, ?_, ?_, ?_⟩
        · intro y q3 hy
          show (d.serve x os).reqs y = _
          rw [hM.reqs]; exact hy
        · intro y q3 hy
          change (d.serve x os).reqs y = _ at hy
          rw [hM.reqs] at hy; exact .inl hy
        · intro j y hy; exact hS.mem_served hy
        · intro j y hy; rw [hS.cancelled]; exact hy
        · intro j y hy; rw [hS.cancelled] at hy; exact .inl hy
        · intro y hy
          rcases serve_failed y hy with h | h
          · exact .inl h
          · subst h; exact .inr ⟨hS.pending, hnp⟩
        · intro b hb
          refine .inl ?_
          show b ∈ (d.serve x os).m.live
          rw [hM.m]; exact hb
        · intro buf
          show (d.serve x os).mem buf = _ ∨ _
          cases hwr : q.write with
          | true => rw [hM.wr hwr]; exact .inl rfl
          | false =>
            by_cases eb : buf = q.buf
            · subst eb
              exact .inr (.inr ⟨hM.len, i, x, q, os, rfl, hw, g1, hS.pending, hnp, hwr, rfl⟩)
            · rw [hM.bufs _ eb]; exact .inl rfl
        · intro j y hy
          by_cases ej : j = qid q.disk
          · subst ej
            have := hS.served
            rw [this] at hy
            rcases List.mem_append.1 hy with h | h
            · exact .inl h
            · rw [List.mem_singleton] at h
              subst h
              exact .inr ⟨os, by rw [g2], by rw [g2]; exact hw⟩
          · have := hS.served' j ej
            rw [this] at hy; exact .inl hy
      · have hw' : ∀ x, (d.qs i).wpc ≠ .serving x := fun x hx => hw ⟨x, hx⟩
        have e : d.transfer i os = d := by
          unfold St.transfer
          split
          · rename_i r hr; exact absurd hr (hw' r)
          · rfl
        rw [e] at h1 ⊢
        refine eff_quiet (work_quiet hw' h1) ?_
        intro x hx
        rw [work_cancelled h1] at hx; exact .inl hx
    | _ => simp [Store.step] at hs

variable {d d' : St} {op : Op}

/-- A pending request was pending before, or has just been made. -/
theorem Eff.pending (E : Eff qid d d' op) {r : Nat} {q : Req} (hq : d'.reqs r = some q) (hp : Pending qid d' r) :
    (d.reqs r = some q ∧ Pending qid d r) ∨
      ∃ w b buf, op = .io r w b buf ∧ b.storage = .managed q.disk ∧ q = ⟨q.disk, w, b.off, b.size, buf⟩ := by
  rcases E.new r q hq with h | h
  · refine .inl ⟨h, q, h, ?_, ?_⟩
    · obtain ⟨q2, p1, p2, p3⟩ := hp
      rw [hq] at p1; injection p1 with p1; subst p1
      exact fun hc => p2 (E.srv _ _ hc)
    · obtain ⟨q2, p1, p2, p3⟩ := hp
      rw [hq] at p1; injection p1 with p1; subst p1
      exact fun hc => p3 (E.can _ _ hc)
  · exact .inr h

/-- What is finished stays finished. -/
theorem Eff.finished (E : Eff qid d d' op) {r : Nat} {q : Req} (hq : d.reqs r = some q) (hp : ¬ Pending qid d r) : ¬ Pending qid d' r := by
  intro hc
  obtain ⟨q2, p1, p2, p3⟩ := hc
  have hq' := E.req r q hq
  rw [hq'] at p1; injection p1 with p1; subst p1
  exact hp ⟨q, hq, fun h => p2 (E.srv _ _ h), fun h => p3 (E.can _ _ h)⟩

end Foxxll.Store
