import Verif.Proofs.StoreTrack
/-
Invariant of the composition of block manager, queues and files.
-/
namespace Foxxll.Store
open Foxxll

variable {k : Queue.Kind} {qid : Nat → Nat} {cfgs : List (Nat × Bool)}

structure InvC (C : Queue.St → Queue.Op → Prop) (k : Queue.Kind) (qid : Nat → Nat) (cfgs : List (Nat × Bool)) (s : St) (h : Hist) : Prop where
  mgr : Mgr.MReach cfgs s.m
  que : ∀ i, Queue.Reach k C (s.qs i)
  spc : ∀ i, (s.qs i).spc = .none
  sub : ∀ i x w, (x, w) ∈ (s.qs i).sub → ∃ q, s.reqs x = some q ∧ q.write = w ∧ qid q.disk = i
  req : ∀ x q, s.reqs x = some q → (x, q.write) ∈ (s.qs (qid q.disk)).sub
  siz : ∀ d, bytesOf s.m d ≤ (s.files d).size
  tail : ∀ d i, (s.files d).size ≤ i → (s.files d).byte i = 0
  buf : ∀ x q, Pending qid s x → s.reqs x = some q → (s.mem q.buf).length = q.size
  own : ∀ x q y q', Pending qid s x → Pending qid s y → s.reqs x = some q → s.reqs y = some q' → q.write = false → q.buf = q'.buf → x = y
  live : ∀ e ∈ h.log, e.b ∈ s.m.live
  trk : ∀ b ∈ s.m.live, ∀ d, b.storage = .managed d → Track k qid s d b.off b.size (h.of b) none
  rd : ∀ x q, Pending qid s x → s.reqs x = some q → q.write = false →
    Track k qid s q.disk q.off q.size (h.seen x) (some x) ∧ q.off + q.size ≤ bytesOf s.m q.disk ∧ (k = .twoQ → ∃ b ∈ s.m.live, q.On b)

/-- Without cancellations in queues of the kind with separate queues for reads and writes. -/
abbrev Inv (k : Queue.Kind) := InvC (Calm k) k

/-- Only cancellations are restricted. -/
def Mild (C : Queue.St → Queue.Op → Prop) : Prop := ∀ s op, (∀ r w, op ≠ .cancel r w) → C s op

theorem calm_mild : Mild (Calm k) := fun _ _ h _ => h

theorem any_mild : Mild (fun _ _ => True) := fun _ _ _ => trivial

variable {C : Queue.St → Queue.Op → Prop}

theorem inv_init {m : Mgr.Manager} {files : Nat → Files.File} {mem : Nat → List UInt8} (hm : Mgr.Manager.create cfgs = .ok m)
    (ht : ∀ d i, (files d).size ≤ i → (files d).byte i = 0) : InvC C k qid cfgs (init m files mem) ⟨[], fun _ => []⟩ where
  mgr := .init hm
  que := fun _ => .start
  spc := fun _ => rfl
  sub := by intro i x w h; simp [init, Queue.init] at h
  req := by intro x q h; simp [init] at h
  siz := fun d => grown_size (Nat.zero_le _) (Nat.zero_le _)
  tail := fun d => grown_tail (ht d)
  buf := by intro x q h h'; simp [init] at h'
  own := by intro x q y q' _ _ h; simp [init] at h
  live := by simp
  trk := by intro b hb; simp [init] at hb
  rd := by intro x q _ h; simp [init] at h

theorem InvC.fresh {s : St} {h : Hist} (I : InvC C k qid cfgs s h) {x : Nat} (hx : s.reqs x = none) (i y : Nat) (w : Bool)
    (hy : (y, w) ∈ (s.qs i).sub) : y ≠ x := by
  intro e; subst e
  obtain ⟨q, h1, _⟩ := I.sub i y w hy
  rw [hx] at h1; cases h1

theorem InvC.ids {s : St} {h : Hist} (I : InvC C k qid cfgs s h) (y : Nat) (q : Req) (hy : s.reqs y = some q) :
    y ∈ (s.qs (qid q.disk)).sub.map (·.1) := List.mem_map.2 ⟨_, I.req y q hy, rfl⟩

theorem InvC.served {s : St} {h : Hist} (I : InvC C k qid cfgs s h) (i y : Nat) (hy : y ∈ (s.qs i).served) : y ∈ (s.qs i).sub.map (·.1) := by
  have ho := Queue.reach_ord (I.que i)
  exact ho.st y (by rw [ho.srv]; simp [hy])

/-! ### Steps of a queue -/

theorem queue_some {s s' : St} {i : Nat} {op : Queue.Op} (h : s.queue k i op = some s') :
    ∃ q, Queue.step k (s.qs i) op = .ok q ∧ s' = { s with qs := upd s.qs i q } := by
  unfold St.queue at h
  split at h
  · rename_i q hq
    injection h with h
    exact ⟨q, hq, h.symm⟩
  · cases h

/-- A step that submits and serves nothing. -/
structure Quiet (q q' : Queue.St) : Prop where
  sub : q'.sub = q.sub
  served : q'.served = q.served
  cancelled : ∀ x ∈ q.cancelled, x ∈ q'.cancelled
  spc : q'.spc = q.spc

theorem signal_quiet {q q' : Queue.St} (h : Queue.step k q .signal = .ok q') : Quiet q q' := by
  simp only [Queue.step] at h
  split at h
  · cases h
  · injection h with h; subst h; exact ⟨rfl, rfl, fun _ h => h, rfl⟩

theorem cancelTake_quiet {q q' : Queue.St} (h : Queue.step k q .cancelTake = .ok q') : Quiet q q' := by
  simp only [Queue.step] at h
  split at h
  · cases h
  · injection h with h; subst h; exact ⟨rfl, rfl, fun _ h => h, rfl⟩

theorem cancel_quiet {q q' : Queue.St} {r : Nat} {w : Bool} (h : Queue.step k q (.cancel r w) = .ok q') : Quiet q q' := by
  simp only [Queue.step, Queue.cancel] at h
  split at h
  · cases h
  · split at h
    · cases h
    · split at h
      · injection h with h; subst h
        split <;> exact ⟨rfl, rfl, fun _ h => by simp [h], rfl⟩
      · injection h with h; subst h; exact ⟨rfl, rfl, fun _ h => h, rfl⟩

theorem work_quiet {q q' : Queue.St} (hw : ∀ r, q.wpc ≠ .serving r) (h : Queue.step k q .work = .ok q') : Quiet q q' := by
  simp only [Queue.step, Queue.work] at h
  split at h
  all_goals first
    | (rename_i r hr; exact absurd hr (hw _))
    | skip
  all_goals (repeat' split at h)
  all_goals first
    | (injection h with h; subst h; exact ⟨rfl, rfl, fun _ h => h, rfl⟩)
    | cases h

theorem work_serving {q q' : Queue.St} {r : Nat} (hw : q.wpc = .serving r) (h : Queue.step k q .work = .ok q') :
    q' = { q with served := q.served ++ [r], wpc := .check } := by
  simp only [Queue.step, Queue.work, hw] at h
  injection h with h; exact h.symm

theorem push_some {q q' : Queue.St} {r : Nat} {w : Bool} (h : Queue.step k q (.push r w) = .ok q') :
    q'.sub = q.sub ++ [(r, w)] ∧ q'.served = q.served ∧ q'.cancelled = q.cancelled ∧ q'.spc = q.spc := by
  simp only [Queue.step, Queue.push] at h
  split at h
  · cases h
  · split at h
    · cases h
    · injection h with h; subst h
      split <;> exact ⟨rfl, rfl, rfl, rfl⟩

theorem upd_cases {α : Type} {P : Nat → α → Prop} {f : Nat → α} {i : Nat} {a : α} (h1 : P i a) (h2 : ∀ j, P j (f j)) : ∀ j, P j (upd f i a j) := by
  intro j
  by_cases e : j = i
  · subst e; rw [upd_same]; exact h1
  · rw [upd_other _ _ e]; exact h2 j

/-! ### Steps without transfer and submission -/

theorem InvC.quiet {s : St} {h : Hist} (I : InvC C k qid cfgs s h) {i : Nat} {op : Queue.Op} {q : Queue.St}
    (hl : Queue.Legal (s.qs i) op) (hc : C (s.qs i) op) (hs : Queue.step k (s.qs i) op = .ok q) (hq : Quiet (s.qs i) q) :
    InvC C k qid cfgs { s with qs := upd s.qs i q } h := by
  have hsub : ∀ j, (upd s.qs i q j).sub = (s.qs j).sub := upd_cases (P := fun j (a : Queue.St) => a.sub = (s.qs j).sub) hq.sub (fun _ => rfl)
  have hsrv : ∀ j, (upd s.qs i q j).served = (s.qs j).served := upd_cases (P := fun j (a : Queue.St) => a.served = (s.qs j).served) hq.served (fun _ => rfl)
  have hcan : ∀ j, ∀ x ∈ (s.qs j).cancelled, x ∈ (upd s.qs i q j).cancelled :=
    upd_cases (P := fun j (a : Queue.St) => ∀ x ∈ (s.qs j).cancelled, x ∈ a.cancelled) hq.cancelled (fun _ _ h => h)
  have hp : ∀ x, Pending qid { s with qs := upd s.qs i q } x → Pending qid s x := by
    rintro x ⟨q', h1, h2, h3⟩
    exact ⟨q', h1, by rwa [hsrv] at h2, fun h => h3 (hcan _ _ h)⟩
  have ht : ∀ {d o z : Nat} {L : List Wrote} {stop : Option Nat}, Track k qid s d o z L stop →
      Track k qid { s with qs := upd s.qs i q } d o z L stop := fun t =>
    t.frame rfl hsub hsrv hcan (fun _ h => h) (fun _ _ _ _ _ => rfl) (fun _ _ => rfl)
  refine ⟨I.mgr, ?_, ?_, ?_, ?_, I.siz, I.tail, ?_, ?_, I.live, ?_, ?_⟩
  · exact upd_cases (P := fun _ (a : Queue.St) => Queue.Reach k C a) (.next op (I.que i) hl hc hs) I.que
  · exact upd_cases (P := fun _ (a : Queue.St) => a.spc = .none) (by rw [hq.spc]; exact I.spc i) I.spc
  · intro j x w hx
    rw [hsub] at hx
    exact I.sub j x w hx
  · intro x q' hx
    rw [hsub]; exact I.req x q' hx
  · intro x q' h1 h2; exact I.buf x q' (hp _ h1) h2
  · intro x q' y q'' h1 h2; exact I.own x q' y q'' (hp _ h1) (hp _ h2)
  · intro b hb d hd; exact ht (I.trk b hb d hd)
  · intro x q' h1 h2 h3
    obtain ⟨g1, g2, g3⟩ := I.rd x q' (hp _ h1) h2 h3
    exact ⟨ht g1, g2, g3⟩

theorem InvC.fill {s : St} {h : Hist} (I : InvC C k qid cfgs s h) {buf : Nat} {data : List UInt8}
    (ha : Allowed k qid s (.fill buf data)) : InvC C k qid cfgs { s with mem := upd s.mem buf data } h := by
  have hp : ∀ x, Pending qid { s with mem := upd s.mem buf data } x → Pending qid s x := fun x h => h
  have hm : ∀ x q, Pending qid s x → s.reqs x = some q → upd s.mem buf data q.buf = s.mem q.buf :=
    fun x q h1 h2 => upd_other _ _ (ha x q h1 h2)
  have ht : ∀ {d o z : Nat} {L : List Wrote} {stop : Option Nat}, Track k qid s d o z L stop →
      Track k qid { s with mem := upd s.mem buf data } d o z L stop := fun t =>
    t.frame rfl (fun _ => rfl) (fun _ => rfl) (fun _ _ h => h) (fun _ h => h) (fun x q h1 h2 _ => hm x q h1 h2) (fun _ _ => rfl)
  refine ⟨I.mgr, I.que, I.spc, I.sub, I.req, I.siz, I.tail, ?_, ?_, I.live, ?_, ?_⟩
  · intro x q h1 h2
    show (upd s.mem buf data q.buf).length = q.size
    rw [hm x q (hp _ h1) h2]; exact I.buf x q (hp _ h1) h2
  · intro x q y q' h1 h2; exact I.own x q y q' (hp _ h1) (hp _ h2)
  · intro b hb d hd; exact ht (I.trk b hb d hd)
  · intro x q' h1 h2 h3
    obtain ⟨g1, g2, g3⟩ := I.rd x q' (hp _ h1) h2 h3
    exact ⟨ht g1, g2, g3⟩

/-! ### Allocation and deletion -/

theorem delete_live {m : Mgr.MSys} {b c : Mgr.Bid} (hc : c ∈ m.live) (h : c ≠ b) : c ∈ (m.step (.delete b)).live := by
  simp only [Mgr.MSys.step]
  split
  · exact (List.mem_erase_of_ne h).2 hc
  · exact hc

theorem delete_sub {m : Mgr.MSys} {b c : Mgr.Bid} (hc : c ∈ (m.step (.delete b)).live) : c ∈ m.live := by
  simp only [Mgr.MSys.step] at hc
  split at hc
  · exact List.mem_of_mem_erase hc
  · exact hc

theorem new_live {m : Mgr.MSys} {f : Nat → Nat} {o : Nat} {out : List Mgr.Bid} {c : Mgr.Bid} (hc : c ∈ m.live) :
    c ∈ (m.step (.new f o out)).live := by
  simp only [Mgr.MSys.step]
  split
  · simp [hc]
  · exact hc

theorem InvC.alloc {s : St} {h : Hist} (I : InvC C k qid cfgs s h) {op : Mgr.MOp} (ha : Allowed k qid s (.mgr op)) :
    InvC C k qid cfgs { s with m := s.m.step op, files := fun d => grown (bytesOf s.m d) (bytesOf (s.m.step op) d) (s.files d) } (h.next s (.mgr op)) := by
  obtain ⟨hv, hr⟩ := ha
  have hp : ∀ x, Pending qid { s with m := s.m.step op, files := fun d => grown (bytesOf s.m d) (bytesOf (s.m.step op) d) (s.files d) } x →
      Pending qid s x := fun x h => h
  have ht : ∀ {d o z : Nat} {L : List Wrote} {stop : Option Nat}, o + z ≤ bytesOf s.m d → Track k qid s d o z L stop →
      Track k qid { s with m := s.m.step op, files := fun d => grown (bytesOf s.m d) (bytesOf (s.m.step op) d) (s.files d) } d o z L stop := fun hb t =>
    t.frame rfl (fun _ => rfl) (fun _ => rfl) (fun _ _ h => h) (fun _ h => h) (fun _ _ _ _ _ => rfl)
      (fun i hi => grown_byte (by omega))
  have hseen : (h.next s (.mgr op)).seen = h.seen := by cases op <;> rfl
  refine ⟨I.mgr.step hv, I.que, I.spc, I.sub, I.req, ?_, ?_, I.buf, I.own, ?_, ?_, ?_⟩
  · intro d; exact grown_size (I.siz d) (bytesOf_step _ _ _)
  · intro d; exact grown_tail (I.tail d)
  · cases op with
    | new f o out => intro e he; exact new_live (I.live e he)
    | delete b =>
      intro e he
      simp only [Hist.next, List.mem_filter] at he
      exact delete_live (I.live e he.1) (by simpa using he.2)
  · intro b hb d hd
    cases op with
    | new f o out =>
      by_cases hbl : b ∈ s.m.live
      · obtain ⟨d', g1, g2, g3⟩ := live_inside I.mgr hbl
        rw [hd] at g1; injection g1 with g1; subst g1
        exact ht g3 (I.trk b hbl d hd)
      · have : (h.next s (.mgr (.new f o out))).of b = [] := by
          show h.log.filter (fun e => e.b = b) = []
          rw [List.filter_eq_nil_iff]
          intro e he hc
          have : e.b = b := by simpa using hc
          exact hbl (this ▸ I.live e he)
        rw [this]; exact track_nil
    | delete c =>
      have hbl := delete_sub hb
      by_cases hbc : b = c
      · subst hbc
        have : (h.next s (.mgr (.delete b))).of b = [] := by
          show (h.log.filter (fun e => e.b ≠ b)).filter (fun e => e.b = b) = []
          rw [List.filter_eq_nil_iff]
          intro e he
          simpa using (List.mem_filter.1 he).2
        rw [this]; exact track_nil
      · have : (h.next s (.mgr (.delete c))).of b = h.of b := by
          show (h.log.filter (fun e => e.b ≠ c)).filter (fun e => e.b = b) = h.log.filter (fun e => e.b = b)
          rw [List.filter_filter]
          apply List.filter_congr
          intro e _
          by_cases he : e.b = b
          · simp [he, hbc]
          · simp [he]
        rw [this]
        obtain ⟨d', g1, g2, g3⟩ := live_inside I.mgr hbl
        rw [hd] at g1; injection g1 with g1; subst g1
        exact ht g3 (I.trk b hbl d hd)
  · intro x q h1 h2 h3
    obtain ⟨g1, g2, g3⟩ := I.rd x q (hp _ h1) h2 h3
    rw [hseen]
    refine ⟨ht g2 g1, Nat.le_trans g2 (bytesOf_step _ _ _), fun hk => ?_⟩
    obtain ⟨b, hb, hon⟩ := g3 hk
    cases op with
    | new f o out => exact ⟨b, new_live hb, hon⟩
    | delete c =>
      refine ⟨b, delete_live hb ?_, hon⟩
      intro e; subst e
      exact hr b rfl hk x q (hp _ h1) h2 h3 hon

/-! ### Submission -/

theorem InvC.io (hC : Mild C) {s : St} {h : Hist} (I : InvC C k qid cfgs s h) {r buf d : Nat} {w : Bool} {b : Mgr.Bid} {q : Queue.St}
    (ha : Allowed k qid s (.io r w b buf)) (hd : b.storage = .managed d) (hs : Queue.step k (s.qs (qid d)) (.push r w) = .ok q) :
    InvC C k qid cfgs { s with reqs := upd s.reqs r (some ⟨d, w, b.off, b.size, buf⟩), qs := upd s.qs (qid d) q } (h.next s (.io r w b buf)) := by
  obtain ⟨ha1, ha2, ha3, ha4, ha5⟩ := ha
  obtain ⟨p1, p2, p3, p4⟩ := push_some hs
  have hP : Pushed qid s { s with reqs := upd s.reqs r (some ⟨d, w, b.off, b.size, buf⟩), qs := upd s.qs (qid d) q } r ⟨d, w, b.off, b.size, buf⟩ := by
    refine ⟨ha1, upd_same _ _ _, fun y hy => upd_other _ _ hy, ?_, ?_, ?_, ?_, rfl, rfl, rfl, rfl⟩
    · show (upd s.qs (qid d) q (qid d)).sub = _
      rw [upd_same]; exact p1
    · intro i hi
      show (upd s.qs (qid d) q i).sub = _
      rw [upd_other _ _ hi]
    · exact upd_cases (P := fun j (a : Queue.St) => a.served = (s.qs j).served) p2 (fun _ => rfl)
    · exact upd_cases (P := fun j (a : Queue.St) => a.cancelled = (s.qs j).cancelled) p3 (fun _ => rfl)
  have hfresh := I.fresh ha1
  have hap : ∀ c ∈ s.m.live, c.storage = .managed d → c ≠ b → Apart b.off b.size c.off c.size :=
    fun c hc hcd hcb => live_apart I.mgr ha2 hc (Ne.symm hcb) (by rw [hd, hcd])
  generalize hS : ({ s with reqs := upd s.reqs r (some ⟨d, w, b.off, b.size, buf⟩), qs := upd s.qs (qid d) q } : St) = S at hP
  have hm : S.m = s.m := hP.m
  have hcase : ∀ x q', S.reqs x = some q' → (x = r ∧ q' = ⟨d, w, b.off, b.size, buf⟩) ∨ (x ≠ r ∧ s.reqs x = some q') := by
    intro x q' hx
    by_cases e : x = r
    · subst e; rw [hP.new] at hx; injection hx with hx; exact .inl ⟨rfl, hx.symm⟩
    · rw [hP.old x e] at hx; exact .inr ⟨e, hx⟩
  have hqs : S.qs = upd s.qs (qid d) q := by rw [← hS]
  constructor
  · rw [hm]; exact I.mgr
  · rw [hqs]
    refine upd_cases (P := fun _ (a : Queue.St) => Queue.Reach k C a) (.next (.push r w) (I.que _) ?_ (hC _ _ (fun _ _ h => by cases h)) hs) I.que
    refine ⟨?_, I.spc _⟩
    intro hr
    obtain ⟨⟨y, w'⟩, g1, g2⟩ := List.mem_map.1 hr
    simp only at g2; subst g2
    exact hfresh _ _ _ g1 rfl
  · rw [hqs]
    exact upd_cases (P := fun _ (a : Queue.St) => a.spc = .none) (by rw [p4]; exact I.spc _) I.spc
  · intro i x w' hx
    have hold : (x, w') ∈ (s.qs i).sub → ∃ q, S.reqs x = some q ∧ q.write = w' ∧ qid q.disk = i := by
      intro hx
      obtain ⟨q', g1, g2, g3⟩ := I.sub i x w' hx
      exact ⟨q', (hP.keep g1).2, g2, g3⟩
    by_cases e : i = qid d
    · subst e
      rw [hP.sub] at hx
      simp only [List.mem_append, List.mem_singleton, Prod.mk.injEq] at hx
      rcases hx with hx | ⟨h1, h2⟩
      · exact hold hx
      · subst h1; subst h2
        exact ⟨_, hP.new, rfl, rfl⟩
    · rw [hP.sub' i e] at hx
      exact hold hx
  · intro x q' hx
    rcases hcase x q' hx with ⟨h1, h2⟩ | ⟨h1, h2⟩
    · subst h1; subst h2
      show (x, w) ∈ (S.qs (qid d)).sub
      rw [hP.sub]; simp
    · have := I.req x q' h2
      by_cases e : qid q'.disk = qid d
      · rw [e] at this ⊢
        rw [hP.sub]; exact List.mem_append.2 (.inl this)
      · rw [hP.sub' _ e]; exact this
  · intro d'; rw [hm, hP.files]; exact I.siz d'
  · intro d'; rw [hP.files]; exact I.tail d'
  · intro x q' h1 h2
    rw [hP.mem]
    rcases hcase x q' h2 with ⟨g1, g2⟩ | ⟨g1, g2⟩
    · subst g2; exact ha3
    · exact I.buf x q' (hP.pending g1 h1) g2
  · intro x q' y q'' h1 h2 h3 h4 h5 h6
    rcases hcase x q' h3 with ⟨g1, g2⟩ | ⟨g1, g2⟩ <;> rcases hcase y q'' h4 with ⟨g3, g4⟩ | ⟨g3, g4⟩
    · rw [g1, g3]
    · exfalso
      subst g2
      have := ha4 y q'' (hP.pending g3 h2) g4 h6.symm
      simp only at h5
      rw [h5] at this; cases this.2
    · exfalso
      subst g4
      have := ha4 x q' (hP.pending g1 h1) g2 h6
      rw [h5] at this; cases this.1
    · exact I.own x q' y q'' (hP.pending g1 h1) (hP.pending g3 h2) g2 g4 h5 h6
  · intro e he
    rw [hm]
    cases w with
    | true =>
      rcases List.mem_cons.1 he with he | he
      · subst he; exact ha2
      · exact I.live e he
    | false => exact I.live e he
  · intro c hc d' hd'
    rw [hm] at hc
    have t := I.trk c hc d' hd'
    cases w with
    | true =>
      by_cases hcb : c = b
      · subst hcb
        rw [hd] at hd'; injection hd' with hd'; subst hd'
        have : (h.next s (.io r true c buf)).of c = ⟨r, c, s.mem buf⟩ :: h.of c := by
          simp [Hist.next, Hist.of]
        rw [this]
        exact t.write hP hfresh I.ids I.served ha3
      · have : (h.next s (.io r true b buf)).of c = h.of c := by
          simp [Hist.next, Hist.of, Ne.symm hcb]
        rw [this]
        refine t.push hP hfresh (fun _ h2 _ => ?_)
        simp only at h2; subst h2
        exact hap c hc hd' hcb
    | false => exact t.push hP hfresh (fun h => by cases h)
  · intro x q' h1 h2 h3
    rw [hm]
    rcases hcase x q' h2 with ⟨g1, g2⟩ | ⟨g1, g2⟩
    · subst g1; subst g2
      simp only at h3; subst h3
      have t := I.trk b ha2 d hd
      obtain ⟨d', e1, e2, e3⟩ := live_inside I.mgr ha2
      rw [hd] at e1; injection e1 with e1; subst e1
      refine ⟨?_, e3, fun _ => ⟨b, ha2, hd, rfl, rfl⟩⟩
      have : (h.next s (.io x false b buf)).seen x = h.of b := by simp [Hist.next, upd_same]
      rw [this]
      exact t.read hP hfresh I.ids
    · obtain ⟨e1, e2, e3⟩ := I.rd x q' (hP.pending g1 h1) g2 h3
      have hseen : (h.next s (.io r w b buf)).seen x = h.seen x := by
        cases w with
        | true => rfl
        | false => simp [Hist.next, upd_other _ _ g1]
      rw [hseen]
      refine ⟨e1.push hP hfresh (fun f1 f2 f3 => ?_), e2, e3⟩
      simp only at f1 f2; subst f1; subst f2
      rcases f3 with f3 | f3
      · cases f3
      · obtain ⟨c, hc, hon⟩ := e3 f3
        have hcb : c ≠ b := by
          intro e; subst e
          exact ha5 rfl f3 x q' (hP.pending g1 h1) g2 h3 hon
        have := hap c hc hon.1 hcb
        rwa [hon.2.1, hon.2.2] at this

/-! ### Transfer -/

theorem InvC.serving {s : St} {h : Hist} (I : InvC C k qid cfgs s h) {i x : Nat} (hw : (s.qs i).wpc = .serving x) :
    ∃ q, s.reqs x = some q ∧ qid q.disk = i ∧ x ∈ (s.qs i).started ∧ x ∉ (s.qs i).served ∧ x ∉ (s.qs i).cancelled := by
  have ho := Queue.reach_ord (I.que i)
  have hst : x ∈ (s.qs i).started := by rw [ho.srv, hw]; simp [Queue.cur]
  obtain ⟨⟨y, w⟩, h1, h2⟩ := List.mem_map.1 (ho.st x hst)
  simp only at h2; subst h2
  obtain ⟨q, g1, g2, g3⟩ := I.sub i y w h1
  refine ⟨q, g1, g3, hst, ?_, ?_⟩
  · intro hc
    have := ho.sd
    rw [ho.srv, hw, List.nodup_append] at this
    exact this.2.2 y hc y (by simp [Queue.cur]) rfl
  · intro hc
    have : y ∈ Queue.due (s.qs i) := (Queue.due_perm ho).mem_iff.2 (by simp [hst])
    simp [Queue.due] at this
    exact this.2 hc

theorem InvC.serve (hC : Mild C) {s : St} {h : Hist} (I : InvC C k qid cfgs s h) {i x : Nat} (hw : (s.qs i).wpc = .serving x) (os : Nat → Files.Sys) {q' : Queue.St}
    (hs : Queue.step k ((s.serve x os).qs i) .work = .ok q') :
    ∃ q, s.reqs x = some q ∧ qid q.disk = i ∧ Moved s (s.serve x os) x q ∧ Served qid s { s.serve x os with qs := upd (s.serve x os).qs i q' } x q ∧
      InvC C k qid cfgs { s.serve x os with qs := upd (s.serve x os).qs i q' } h := by
  obtain ⟨q, hq, hi, hst, hns, hnc⟩ := I.serving hw
  have hpen : Pending qid s x := ⟨q, hq, by rw [hi]; exact hns, by rw [hi]; exact hnc⟩
  have hM := serve_moved os hq (I.buf x q hpen hq) (I.tail q.disk)
  have hqs : (s.serve x os).qs = s.qs := hM.qs
  rw [hqs] at hs ⊢
  have he := work_serving hw hs
  have hS : Served qid s { s.serve x os with qs := upd s.qs i q' } x q := by
    subst hi
    refine ⟨⟨_, hM, rfl, rfl, rfl, rfl, rfl⟩, hq, ?_, ?_, ?_, ?_, hst, hns, hnc⟩
    · exact upd_cases (P := fun j (a : Queue.St) => a.sub = (s.qs j).sub) (by rw [he]) (fun _ => rfl)
    · exact upd_cases (P := fun j (a : Queue.St) => a.cancelled = (s.qs j).cancelled) (by rw [he]) (fun _ => rfl)
    · show (upd s.qs (qid q.disk) q' (qid q.disk)).served = _
      rw [upd_same, he]
    · intro j hj
      show (upd s.qs (qid q.disk) q' j).served = _
      rw [upd_other _ _ hj]
  refine ⟨q, hq, hi, hM, hS, ?_⟩
  have haf := fun y => @Served.after qid s _ x q hS y
  have ht : ∀ {d o z : Nat} {L : List Wrote} {stop : Option Nat}, Track k qid s d o z L stop →
      (∀ r, stop = some r → Pending qid s r ∧ r ≠ x ∧ ∃ q', s.reqs r = some q' ∧ q'.disk = d) →
      Track k qid { s.serve x os with qs := upd s.qs i q' } d o z L stop := fun t hst =>
    t.serve hS I.que I.req (fun y q2 h1 h2 h3 h4 => I.own x q y q2 hpen h1 hq h2 h3 h4) hst
  have hreq : (s.serve x os).reqs = s.reqs := hM.reqs
  have hm : (s.serve x os).m = s.m := hM.m
  constructor
  · show Mgr.MReach cfgs (s.serve x os).m
    rw [hm]; exact I.mgr
  · exact upd_cases (P := fun _ (a : Queue.St) => Queue.Reach k C a) (.next .work (I.que i) trivial (hC _ _ (fun _ _ h => by cases h)) hs) I.que
  · exact upd_cases (P := fun _ (a : Queue.St) => a.spc = .none) (by rw [he]; exact I.spc i) I.spc
  · intro j y w hy
    rw [hS.sub] at hy
    show ∃ q, (s.serve x os).reqs y = some q ∧ _
    rw [hreq]; exact I.sub j y w hy
  · intro y q2 hy
    rw [hS.sub]
    have : s.reqs y = some q2 := by rw [← hreq]; exact hy
    exact I.req y q2 this
  · intro d
    show bytesOf (s.serve x os).m d ≤ ((s.serve x os).files d).size
    rw [hm]
    by_cases hd : d = q.disk
    · subst hd; exact Nat.le_trans (I.siz _) hM.size
    · rw [hM.other d hd]; exact I.siz d
  · intro d
    show ∀ i, ((s.serve x os).files d).size ≤ i → ((s.serve x os).files d).byte i = 0
    by_cases hd : d = q.disk
    · subst hd; exact hM.tail
    · rw [hM.other d hd]; exact I.tail d
  · intro y q2 h1 h2
    have h2 : s.reqs y = some q2 := by rw [← hreq]; exact h2
    show ((s.serve x os).mem q2.buf).length = q2.size
    rw [← I.buf y q2 (haf _ h1).1 h2]
    by_cases hb : q2.buf = q.buf
    · rw [hb]; exact hM.len
    · rw [hM.bufs _ hb]
  · intro y q2 z q3 h1 h2 h3 h4
    have h3 : s.reqs y = some q2 := by rw [← hreq]; exact h3
    have h4 : s.reqs z = some q3 := by rw [← hreq]; exact h4
    exact I.own y q2 z q3 (haf _ h1).1 (haf _ h2).1 h3 h4
  · intro e he
    show e.b ∈ (s.serve x os).m.live
    rw [hm]; exact I.live e he
  · intro b hb d hd
    have hb : b ∈ s.m.live := by rw [← hm]; exact hb
    exact ht (I.trk b hb d hd) (fun r hr => by cases hr)
  · intro y q2 h1 h2 h3
    have h2 : s.reqs y = some q2 := by rw [← hreq]; exact h2
    obtain ⟨g1, g2, g3⟩ := I.rd y q2 (haf _ h1).1 h2 h3
    show _ ∧ q2.off + q2.size ≤ bytesOf (s.serve x os).m q2.disk ∧ (k = .twoQ → ∃ b ∈ (s.serve x os).m.live, q2.On b)
    rw [hm]
    refine ⟨ht g1 (fun r hr => ?_), g2, g3⟩
    injection hr with hr; subst hr
    exact ⟨(haf _ h1).1, (haf _ h1).2, q2, h2, rfl⟩

/-! ### All steps -/

theorem InvC.step (hC : Mild C) {s s' : St} {h : Hist} (I : InvC C k qid cfgs s h) {op : Op} (ha : Allowed k qid s op) (hP : ∀ r w st, op = .cancel r → C st (.cancel r w))
    (hs : step k qid s op = some s') : InvC C k qid cfgs s' (h.next s op) := by
  cases op with
  | mgr op =>
    simp only [Store.step] at hs
    injection hs with hs; subst hs
    exact I.alloc ha
  | fill buf data =>
    simp only [Store.step] at hs
    injection hs with hs; subst hs
    exact I.fill ha
  | io r w b buf =>
    simp only [Store.step] at hs
    split at hs
    · rename_i d hd
      obtain ⟨q, h1, h2⟩ := queue_some hs
      subst h2
      exact I.io hC ha hd h1
    · cases hs
  | cancel r =>
    simp only [Store.step] at hs
    split at hs
    · rename_i q hq
      obtain ⟨q', h1, h2⟩ := queue_some hs
      subst h2
      refine I.quiet (op := .cancel r q.write) ⟨?_, I.spc _⟩ (hP r _ _ rfl) h1 (cancel_quiet h1)
      intro w' hw'
      obtain ⟨q2, g1, g2, _⟩ := I.sub _ _ _ hw'
      rw [hq] at g1; injection g1 with g1; subst g1
      exact g2.symm
    · cases hs
  | run i qop os =>
    cases qop with
    | signal =>
      simp only [Store.step] at hs
      obtain ⟨q', h1, h2⟩ := queue_some hs
      subst h2
      exact I.quiet (op := .signal) trivial (hC _ _ (fun _ _ h => by cases h)) h1 (signal_quiet h1)
    | cancelTake =>
      simp only [Store.step] at hs
      obtain ⟨q', h1, h2⟩ := queue_some hs
      subst h2
      exact I.quiet (op := .cancelTake) trivial (hC _ _ (fun _ _ h => by cases h)) h1 (cancelTake_quiet h1)
    | work =>
      simp only [Store.step] at hs
      obtain ⟨q', h1, h2⟩ := queue_some hs
      subst h2
      by_cases hw : ∃ x, (s.qs i).wpc = .serving x
      · obtain ⟨x, hw⟩ := hw
        have e : s.transfer i os = s.serve x os := by unfold St.transfer; rw [hw]
        rw [e] at h1 ⊢
        obtain ⟨_, _, _, _, _, I'⟩ := I.serve hC hw os h1
        exact I'
      · have hw' : ∀ x, (s.qs i).wpc ≠ .serving x := fun x hx => hw ⟨x, hx⟩
        have e : s.transfer i os = s := by
          unfold St.transfer
          split
          · rename_i r hr; exact absurd hr (hw' r)
          · rfl
        rw [e] at h1 ⊢
        exact I.quiet (op := .work) trivial (hC _ _ (fun _ _ h => by cases h)) h1 (work_quiet hw' h1)
    | _ => simp [Store.step] at hs

theorem life_inv {s : St} {h : Hist} (hl : Life k qid cfgs (Orderly k) s h) : Inv k qid cfgs s h := by
  induction hl with
  | start hm ht => exact inv_init hm ht
  | next op _ ha hp hs ih => exact ih.step calm_mild ha (fun r _ _ e hk => absurd e (hp hk r)) hs

/-- With cancellations. -/
theorem life_any {P : Op → Prop} {s : St} {h : Hist} (hl : Life k qid cfgs P s h) : InvC (fun _ _ => True) k qid cfgs s h := by
  induction hl with
  | start hm ht => exact inv_init hm ht
  | next op _ ha hp hs ih => exact ih.step any_mild ha (fun _ _ _ _ => trivial) hs

end Foxxll.Store
