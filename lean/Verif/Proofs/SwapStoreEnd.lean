import Verif.Proofs.SwapStoreCalls
import Verif.Props.Queues
/-
Calls of the block scheduler on top of the store come to an end.
-/
namespace Foxxll.SwapStore
open Foxxll

variable {k : Queue.Kind} {qid : Nat → Nat} {cfgs : List (Nat × Bool)} {memory : Nat}
variable {g : Cfg} {s : Sys} {h : Store.Hist} {a : Swap.Abs Data} {os : Nat → Files.Sys}

theorem Ev.Inner.known {ev : Ev} (h : ev.Inner os) (g : Cfg) (s : Sys) (a : Swap.Abs Data) : SwapStore.known g s a ev = a := by
  cases ev <;> simp only [Ev.Inner] at h <;> rfl

theorem Leads.run {t : Sys} {h' : Store.Hist} (hl : Leads k qid memory g a os s h t h') (hr : Run k qid cfgs memory g s h a) : Run k qid cfgs memory g t h' a := by
  induction hl with
  | refl => exact hr
  | next ev hi hf hs _ ih =>
    have := Run.next ev hr hf hs
    rw [hi.known] at this
    exact ih this

theorem Leads.trans {t u : Sys} {h' h'' : Store.Hist} (h1 : Leads k qid memory g a os s h t h') (h2 : Leads k qid memory g a os t h' u h'') :
    Leads k qid memory g a os s h u h'' := by
  induction h1 with
  | refl => exact h2
  | next ev hi hf hs _ ih => exact .next ev hi hf hs (ih h2)

/-! ### Requests -/

theorem step_reqs {d d' : Store.St} {op : Store.Op} (h : Store.step k qid d op = some d') :
    (∀ r, d.reqs r ≠ none → d'.reqs r ≠ none) ∧ ∃ r, ∀ j, j ≠ r → d'.reqs j = d.reqs j := by
  cases op with
  | mgr op => simp only [Store.step] at h; injection h with h; subst h; exact ⟨fun _ h => h, 0, fun _ _ => rfl⟩
  | fill b x => simp only [Store.step] at h; injection h with h; subst h; exact ⟨fun _ h => h, 0, fun _ _ => rfl⟩
  | io r w b buf =>
    simp only [Store.step] at h
    split at h
    · obtain ⟨q, _, rfl⟩ := Store.queue_some h
      refine ⟨?_, r, ?_⟩
      · intro j hj
        show Store.upd d.reqs r _ j ≠ none
        unfold Store.upd
        split
        · simp
        · exact hj
      · intro j hj
        show Store.upd d.reqs r _ j = _
        simp [Store.upd, hj]
    · cases h
  | cancel r =>
    simp only [Store.step] at h
    split at h
    · obtain ⟨q, _, rfl⟩ := Store.queue_some h
      exact ⟨fun _ h => h, 0, fun _ _ => rfl⟩
    · cases h
  | run i op os =>
    have htr : (d.transfer i os).reqs = d.reqs := by
      unfold Store.St.transfer
      split
      · unfold Store.St.serve
        repeat' split
        all_goals rfl
      · rfl
    cases op <;> simp only [Store.step] at h
    case signal => obtain ⟨q, _, rfl⟩ := Store.queue_some h; exact ⟨fun _ h => h, 0, fun _ _ => rfl⟩
    case cancelTake => obtain ⟨q, _, rfl⟩ := Store.queue_some h; exact ⟨fun _ h => h, 0, fun _ _ => rfl⟩
    case work =>
      obtain ⟨q, _, rfl⟩ := Store.queue_some h
      refine ⟨fun j hj => ?_, 0, fun j _ => ?_⟩
      · show (d.transfer i os).reqs j ≠ none
        rw [htr]; exact hj
      · show (d.transfer i os).reqs j = _
        rw [htr]
    all_goals cases h

/-- There are numbers for new requests. -/
theorem life_fresh {P : Store.Op → Prop} {d : Store.St} (hl : Store.Life k qid cfgs P d h) : ∃ n, ∀ r, n ≤ r → d.reqs r = none := by
  induction hl with
  | start => exact ⟨0, fun _ _ => rfl⟩
  | next op _ _ _ hs ih =>
    obtain ⟨n, hn⟩ := ih
    obtain ⟨_, r, hr⟩ := step_reqs hs
    refine ⟨Nat.max n (r + 1), fun j hj => ?_⟩
    have h1 : n ≤ j := Nat.le_trans (Nat.le_max_left _ _) hj
    have h2 : r + 1 ≤ j := Nat.le_trans (Nat.le_max_right _ _) hj
    rw [hr j (by omega)]; exact hn j h1

/-- The write requests not waited for exist. -/
theorem out_reqs (hr : Run k qid cfgs memory g s h a) : ∀ r ∈ s.out, s.d.reqs r ≠ none := by
  induction hr with
  | start => intro r hr; cases hr
  | @next s s' h a ev _ _ hs ih =>
    have key : ∀ {op : Store.Op} {f : Store.St → Sys}, s.via k qid op f = .ok s' → (∀ d, (f d).d = d) → (∀ d, (f d).out = s.out) →
        ∀ r ∈ s'.out, s'.d.reqs r ≠ none := by
      intro op f hv h1 h2 r hr
      obtain ⟨d, h3, rfl⟩ := via_ok hv
      rw [h1]; rw [h2] at hr
      exact (step_reqs h3).1 r (ih r hr)
    cases ev with
    | call op =>
      simp only [Sys.step] at hs
      repeat' split at hs
      all_goals first | cases hs; exact ih | cases hs
    | ret =>
      simp only [Sys.step] at hs
      repeat' split at hs
      all_goals first | cases hs; exact ih | cases hs
    | adopt b v =>
      simp only [Sys.step] at hs
      repeat' split at hs
      all_goals first | cases hs; exact ih | cases hs
    | drop e =>
      simp only [Sys.step] at hs
      repeat' split at hs
      all_goals first | cases hs; exact ih | cases hs
    | env op => exact key hs (fun _ => rfl) (fun _ => rfl)
    | cmd r f o =>
      simp only [Sys.step] at hs
      split at hs
      · cases hs
      · rename_i c l ht
        cases c with
        | new e =>
          simp only [Sys.exec] at hs
          split at hs
          · exact key hs (fun _ => rfl) (fun _ => rfl)
          · cases hs
        | delete e => simp only [Sys.exec] at hs; exact key hs (fun _ => rfl) (fun _ => rfl)
        | fill p => simp only [Sys.exec] at hs; exact key hs (fun _ => rfl) (fun _ => rfl)
        | put p x => simp only [Sys.exec] at hs; exact key hs (fun _ => rfl) (fun _ => rfl)
        | write p e =>
          obtain ⟨d, h3, rfl⟩ := via_ok hs
          intro j hj
          rcases List.mem_cons.1 hj with rfl | hj
          · simp only [Store.step] at h3
            split at h3
            · obtain ⟨q, _, rfl⟩ := Store.queue_some h3
              show Store.upd _ _ _ _ ≠ none
              simp [Store.upd]
            · cases h3
          · exact (step_reqs h3).1 j (ih j hj)
        | wait =>
          simp only [Sys.exec] at hs
          repeat' split at hs
          all_goals first | cases hs | skip
          rename_i r' rest he _ _
          intro j hj
          exact ih j (by rw [he]; exact List.mem_cons_of_mem _ hj)
        | read p e =>
          simp only [Sys.exec] at hs
          split at hs
          · exact key hs (fun _ => rfl) (fun _ => rfl)
          · repeat' split at hs
            all_goals first | cases hs; exact ih | cases hs

/-! ### Steps inside of the queues -/

theorem step_run {i : Nat} {op : Queue.Op} (hi : Queue.Internal op) {q : Queue.St} (hs : Queue.step k (s.d.qs i) op = .ok q) :
    ∃ d', s.step k qid g (.env (.run i op os)) = .ok { s with d := d' } ∧ d'.qs = Store.upd s.d.qs i q ∧ d'.reqs = s.d.reqs := by
  cases op <;> simp only [Queue.Internal] at hi
  case signal => exact ⟨{ s.d with qs := Store.upd s.d.qs i q }, by simp only [Sys.step, Sys.via, Store.step, Store.St.queue, hs], rfl, rfl⟩
  case cancelTake => exact ⟨{ s.d with qs := Store.upd s.d.qs i q }, by simp only [Sys.step, Sys.via, Store.step, Store.St.queue, hs], rfl, rfl⟩
  case work =>
    have htr : (s.d.transfer i os).reqs = s.d.reqs ∧ (s.d.transfer i os).qs = s.d.qs := by
      unfold Store.St.transfer
      split
      · unfold Store.St.serve
        repeat' split
        all_goals exact ⟨rfl, rfl⟩
      · exact ⟨rfl, rfl⟩
    refine ⟨{ s.d.transfer i os with qs := Store.upd (s.d.transfer i os).qs i q }, ?_, ?_, htr.1⟩
    · simp only [Sys.step, Sys.via, Store.step, Store.St.queue, htr.2, hs]
    · show Store.upd (s.d.transfer i _).qs i q = _
      rw [htr.2]

/-- What the steps inside of queue `i` do. -/
theorem lead_runs {i : Nat} {t : Queue.St} {q : Queue.St} (hq : Queue.Runs k q t) : ∀ {s : Sys} {h : Store.Hist}, s.d.qs i = q →
    ∃ d', Leads k qid memory g a os s h { s with d := d' } h ∧ d'.qs i = t ∧ d'.reqs = s.d.reqs := by
  induction hq with
  | refl q => intro s h e; exact ⟨s.d, .refl s h, e, rfl⟩
  | @step q q' t op hi hs _ ih =>
    intro s h e
    subst e
    obtain ⟨d1, h1, h2, h3⟩ := step_run (qid := qid) (g := g) (os := os) hi hs
    obtain ⟨d2, g1, g2, g3⟩ := ih (s := { s with d := d1 }) (h := h) (by show d1.qs i = q'; rw [h2]; simp [Store.upd])
    have hf : Fair k qid memory g s h a (.env (.run i op os)) := ⟨trivial, (fun _ r e => by cases e), trivial⟩
    exact ⟨d2, .next (.env (.run i op os)) rfl hf h1 g1, g2, g3.trans h3⟩

/-- All requests in queue `i` are served. -/
theorem lead_serve {J : Store.Inv k qid cfgs s.d h} (i : Nat) : ∃ d', Leads k qid memory g a os s h { s with d := d' } h ∧ d'.reqs = s.d.reqs ∧
    ∀ r q, s.d.reqs r = some q → qid q.disk = i → over qid d' r = true := by
  obtain ⟨t, h1, h2, h3, h4⟩ := Queue.C21_progress (Store.reach_any (J.que i)) (J.spc i)
  obtain ⟨d', g1, g2, g3⟩ := lead_runs (qid := qid) (memory := memory) (g := g) (a := a) (os := os) h1 (s := s) (h := h) rfl
  refine ⟨d', g1, g3, fun r q hr hq => ?_⟩
  have hs := J.req r q hr
  subst hq
  unfold over
  rw [g3, hr]
  simp only [Bool.or_eq_true, List.contains_iff_mem]
  rw [g2]
  by_cases hc : r ∈ (s.d.qs (qid q.disk)).cancelled
  · exact .inr (by rw [h3]; exact hc)
  · refine .inl (h4.mem_iff.2 (List.mem_filter.2 ⟨List.mem_map.2 ⟨_, hs, rfl⟩, ?_⟩))
    simpa using hc

/-- The lock of queue `i` becomes free. -/
theorem lead_unlock {J : Store.Inv k qid cfgs s.d h} (i : Nat) : ∃ d', Leads k qid memory g a os s h { s with d := d' } h ∧ d'.reqs = s.d.reqs ∧
    Queue.locked k (d'.qs i) = false := by
  by_cases hn : (s.d.qs i).nsig = 0
  · exact ⟨s.d, .refl _ _, rfl, by simp [Queue.locked, hn]⟩
  · cases k with
    | twoQ => exact ⟨s.d, .refl _ _, rfl, by simp [Queue.locked]⟩
    | oneQ =>
      have h1 := (Queue.reach_bal (Store.reach_any (J.que i))).nsig1 rfl
      have hs : Queue.step .oneQ (s.d.qs i) .signal = .ok { s.d.qs i with nsig := (s.d.qs i).nsig - 1, sem := (s.d.qs i).sem + 1 } := by
        simp only [Queue.step, hn, if_false]
      obtain ⟨d', g1, g2, g3⟩ := lead_runs (qid := qid) (memory := memory) (g := g) (a := a) (os := os) (.step .signal trivial hs (.refl _)) (s := s) (h := h) rfl
      refine ⟨d', g1, g3, ?_⟩
      rw [g2]
      have : (s.d.qs i).nsig - 1 = 0 := by omega
      simp [Queue.locked, this]

theorem push_ok {J : Store.Inv k qid cfgs s.d h} {r : Nat} {w : Bool} {b : Mgr.Bid} {buf dk : Nat} (hb : b.storage = .managed dk)
    (hl : Queue.locked k (s.d.qs (qid dk)) = false) : ∃ d, Store.step k qid s.d (.io r w b buf) = some d := by
  have := ((Queue.reach_bal (Store.reach_any (J.que (qid dk)))).run (J.spc _)).1
  simp [Store.step, hb, Store.St.queue, Queue.step, Queue.push, this, hl]

/-- A disk for every block. -/
theorem managed {J : Store.Inv k qid cfgs s.d h} {b : Mgr.Bid} (hb : b ∈ s.d.m.live) : ∃ dk, b.storage = .managed dk := by
  obtain ⟨lost, hi⟩ := Mgr.mreach_inv J.mgr
  obtain ⟨d, _, h⟩ := hi.man b hb
  exact ⟨d, h⟩

/-- The next command is carried out, or throws. -/
theorem one_cmd (hraw : 0 < g.raw) (hd : g.dflt.length = g.raw) (hcf : cfgs ≠ []) (hr : Run k qid cfgs memory g s h a) {c : Cmd} {l : List Cmd}
    (ht : s.todo = c :: l) : ∃ d' r, Leads k qid memory g a os s h { s with d := d' } h ∧
      Fair k qid memory g { s with d := d' } h a (.cmd r (fun _ => 0) 0) ∧
      Sys.step k qid g { s with d := d' } (.cmd r (fun _ => 0) 0) ≠ .no ∧ Sys.step k qid g { s with d := d' } (.cmd r (fun _ => 0) 0) ≠ .bad := by
  have fin : ∀ d', Leads k qid memory g a os s h { s with d := d' } h →
      (∀ r, Sys.exec k qid g { s with d := d' } r (fun _ => 0) 0 c l ≠ .no ∧ Sys.exec k qid g { s with d := d' } r (fun _ => 0) 0 c l ≠ .bad) →
      ∃ d' r, Leads k qid memory g a os s h { s with d := d' } h ∧ Fair k qid memory g { s with d := d' } h a (.cmd r (fun _ => 0) 0) ∧
      Sys.step k qid g { s with d := d' } (.cmd r (fun _ => 0) 0) ≠ .no ∧ Sys.step k qid g { s with d := d' } (.cmd r (fun _ => 0) 0) ≠ .bad := by
    intro d' hl he
    obtain ⟨fu, x, R⟩ := run_inv hraw hd (hl.run hr)
    obtain ⟨n, hn⟩ := life_fresh R.mi.life
    obtain ⟨lost, hi⟩ := Mgr.mreach_inv (Store.life_inv R.mi.life).mgr
    have hlen : 0 < d'.m.mgr.disks.length := by
      have := hi.len
      have h2 : 0 < cfgs.length := List.length_pos_iff.2 hcf
      change d'.m.mgr.disks.length = _ at this
      omega
    refine ⟨d', n, hl, ⟨hn n (Nat.le_refl _), hlen⟩, ?_⟩
    have hst : Sys.step k qid g { s with d := d' } (.cmd n (fun _ => 0) 0) = Sys.exec k qid g { s with d := d' } n (fun _ => 0) 0 c l := by
      show (match s.todo with | [] => Out.no | x :: l => _) = _
      rw [ht]
    rw [hst]
    exact he n
  obtain ⟨fu, x, R⟩ := run_inv hraw hd hr
  have J := Store.life_inv R.mi.life
  have hcan := R.cans
  rw [ht] at hcan
  have hcan := hcan.1
  have viaok : ∀ {t : Sys} {op : Store.Op} {f : Store.St → Sys}, (∃ d, Store.step k qid t.d op = some d) → t.via k qid op f ≠ .no ∧ t.via k qid op f ≠ .bad := by
    intro t op f ⟨d, hd⟩
    unfold Sys.via
    rw [hd]; exact ⟨(fun h => by cases h), (fun h => by cases h)⟩
  have ok2 : ∀ {t : Sys} {r : Nat} {u : Sys}, over qid t.d r = true →
      (if over qid t.d r = true then if t.d.failed.contains r = true then Out.throws else .ok u else .no) ≠ .no ∧
      (if over qid t.d r = true then if t.d.failed.contains r = true then Out.throws else .ok u else .no) ≠ .bad := by
    intro t r u h
    rw [if_pos h]
    split <;> exact ⟨(fun h => by cases h), (fun h => by cases h)⟩
  cases c with
  | new e =>
    refine fin s.d (.refl _ _) fun r => ?_
    simp only [Sys.exec]
    split
    · exact viaok ⟨_, rfl⟩
    · exact ⟨fun h => (by cases h), fun h => (by cases h)⟩
  | delete e =>
    refine fin s.d (.refl _ _) fun r => ?_
    simp only [Sys.exec]
    exact viaok ⟨_, rfl⟩
  | fill p =>
    refine fin s.d (.refl _ _) fun r => ?_
    simp only [Sys.exec]
    exact viaok ⟨_, rfl⟩
  | put p v =>
    refine fin s.d (.refl _ _) fun r => ?_
    simp only [Sys.exec]
    exact viaok ⟨_, rfl⟩
  | write p e =>
    obtain ⟨dk, hdk⟩ := managed (J := J) (R.mi.live e hcan.1).1
    obtain ⟨d', h1, h2, h3⟩ := lead_unlock (J := J) (memory := memory) (g := g) (a := a) (os := os) (qid dk)
    refine fin d' h1 fun r => ?_
    simp only [Sys.exec]
    obtain ⟨fu', x', R'⟩ := run_inv hraw hd (h1.run hr)
    exact viaok (push_ok (J := Store.life_inv R'.mi.life) hdk h3)
  | wait =>
    have hpos : 0 < s.out.length := hcan
    obtain ⟨r', rest, ho⟩ := List.exists_cons_of_length_pos hpos
    obtain ⟨q, hq⟩ := Option.ne_none_iff_exists'.1 (out_reqs hr r' (by rw [ho]; exact List.mem_cons_self ..))
    obtain ⟨d', h1, h2, h3⟩ := lead_serve (J := J) (memory := memory) (g := g) (a := a) (os := os) (qid q.disk)
    refine fin d' h1 fun r => ?_
    simp only [Sys.exec, ho]
    exact ok2 (t := { s with d := d' }) (h3 r' q hq rfl)
  | read p e =>
    by_cases hrd : s.rd = none
    · obtain ⟨dk, hdk⟩ := managed (J := J) (R.mi.live e hcan.1).1
      obtain ⟨d', h1, h2, h3⟩ := lead_unlock (J := J) (memory := memory) (g := g) (a := a) (os := os) (qid dk)
      refine fin d' h1 fun r => ?_
      simp only [Sys.exec, hrd]
      obtain ⟨fu', x', R'⟩ := run_inv hraw hd (h1.run hr)
      exact viaok (push_ok (J := Store.life_inv R'.mi.life) hdk h3)
    · obtain ⟨r', hrd⟩ := Option.ne_none_iff_exists'.1 hrd
      obtain ⟨p', e', l', dk, q1, q2, q3, q4, q5, q6, hq, _⟩ := R.mi.rd r' hrd
      obtain ⟨d', h1, h2, h3⟩ := lead_serve (J := J) (memory := memory) (g := g) (a := a) (os := os) (qid dk)
      refine fin d' h1 fun r => ?_
      simp only [Sys.exec, hrd]
      exact ok2 (t := { s with d := d' }) (h3 r' _ hq rfl)

theorem rd_todo (hraw : 0 < g.raw) (hd : g.dflt.length = g.raw) (hr : Run k qid cfgs memory g s h a) {r : Nat} (hrd : s.rd = some r) :
    ∃ p e l, s.todo = .read p e :: l := by
  obtain ⟨fu, x, R⟩ := run_inv hraw hd hr
  obtain ⟨p, e, l, _, h1, _⟩ := R.mi.rd r hrd
  exact ⟨p, e, l, h1⟩

/-- Commands are used up. -/
theorem cmd_weight (hrd : ∀ r, s.rd = some r → ∃ p e l, s.todo = .read p e :: l) {r : Nat} {f : Nat → Nat} {o : Nat} {s' : Sys}
    (hs : s.step k qid g (.cmd r f o) = .ok s') : s'.weight < s.weight ∧ s'.cur = s.cur ∧ s'.c = s.c := by
  simp only [Sys.step] at hs
  split at hs
  · cases hs
  rename_i c l ht
  have hn : (∀ p e, c ≠ .read p e) → s.rd = none := by
    intro hne
    cases h : s.rd with
    | none => rfl
    | some r =>
      obtain ⟨p, e, l, h1⟩ := hrd r h
      rw [ht] at h1; injection h1 with h1 _
      exact absurd h1 (hne p e)
  have wl : (∀ p e, c ≠ .read p e) → s'.todo = l → s'.rd = s.rd → s'.weight < s.weight := by
    intro hne h1 h2
    unfold Sys.weight
    rw [h1, h2, hn hne, ht]
    simp
  cases c with
  | new e =>
    simp only [Sys.exec] at hs
    split at hs
    · obtain ⟨d, _, rfl⟩ := via_ok hs
      exact ⟨wl (fun _ _ e => by cases e) rfl rfl, rfl, rfl⟩
    · cases hs
  | delete e => simp only [Sys.exec] at hs; obtain ⟨d, _, rfl⟩ := via_ok hs; exact ⟨wl (fun _ _ e => by cases e) rfl rfl, rfl, rfl⟩
  | fill p => simp only [Sys.exec] at hs; obtain ⟨d, _, rfl⟩ := via_ok hs; exact ⟨wl (fun _ _ e => by cases e) rfl rfl, rfl, rfl⟩
  | put p v => simp only [Sys.exec] at hs; obtain ⟨d, _, rfl⟩ := via_ok hs; exact ⟨wl (fun _ _ e => by cases e) rfl rfl, rfl, rfl⟩
  | write p e => simp only [Sys.exec] at hs; obtain ⟨d, _, rfl⟩ := via_ok hs; exact ⟨wl (fun _ _ e => by cases e) rfl rfl, rfl, rfl⟩
  | wait =>
    simp only [Sys.exec] at hs
    repeat' split at hs
    all_goals first | cases hs | skip
    exact ⟨wl (fun _ _ e => by cases e) rfl rfl, rfl, rfl⟩
  | read p e =>
    simp only [Sys.exec] at hs
    split at hs
    · rename_i hnone
      obtain ⟨d, _, rfl⟩ := via_ok hs
      refine ⟨?_, rfl, rfl⟩
      unfold Sys.weight
      simp [hnone, ht]
      omega
    · rename_i r' hsome
      repeat' split at hs
      all_goals first | cases hs | skip
      refine ⟨?_, rfl, rfl⟩
      unfold Sys.weight
      simp [hsome, ht]
      omega

end Foxxll.SwapStore
