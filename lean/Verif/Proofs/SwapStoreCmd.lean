import Verif.Proofs.SwapStoreInv
/-
Commands keep the invariant of the block scheduler on top of the store.
-/
namespace Foxxll.SwapStore
open Foxxll

variable {k : Queue.Kind} {qid : Nat → Nat} {cfgs : List (Nat × Bool)}
variable {max : Nat} {g : Cfg} {s : Sys} {h : Store.Hist} {fu : Nat → Prop} {x : (Nat → Data) × (Nat → Data)}

def Sys.chk (s : Sys) (fu : Nat → Prop) : Chk := ⟨(· ∈ s.own), fu, s.out.length⟩

/-- Nothing is read unless the first command says so. -/
theorem MI.norun (I : MI k qid cfgs max g s h fu x) (ht : ∀ p e l, s.todo ≠ .read p e :: l) : s.rd = none := by
  cases hr : s.rd with
  | none => rfl
  | some r =>
    obtain ⟨p, e, l, _, h1, _⟩ := I.rd r hr
    exact absurd h1 (ht p e l)

/-- No pending request has the buffer. -/
theorem MI.quiet (I : MI k qid cfgs max g s h fu x) (hr : s.rd = none) (ho : s.out = []) {p : Nat} (hp : p < max) :
    ∀ r q, Store.Pending qid s.d r → s.d.reqs r = some q → q.buf ≠ g.base + p := by
  intro r q h1 h2 e
  rcases I.buf r q h1 h2 (by omega) (by omega) with h | h
  · rw [ho] at h; cases h.2
  · rw [hr] at h; cases h

/-- The operations of the store keep its rules. -/
theorem MI.ready (I : MI k qid cfgs max g s h fu x) (hraw : 0 < g.raw) {c : Cmd} {l : List Cmd} (ht : s.todo = c :: l)
    (hc : (s.chk fu).can max g.raw c) {r : Nat} {f : Nat → Nat} {o : Nat} (hfr : s.d.reqs r = none) (hf : f o < s.d.m.mgr.disks.length)
    {op : Store.Op} (hop : s.store g (.cmd r f o) = some op) : Store.Allowed k qid s.d op ∧ Store.Orderly k op := by
  have hnr : (∀ p e, c ≠ .read p e) → s.rd = none := fun h => I.norun (fun p e l' e' => by rw [ht] at e'; injection e' with e' _; exact h p e e')
  have hlen : ∀ {n : Nat}, (s.chk fu).n = 0 → s.out = [] := fun h => List.length_eq_zero_iff.1 h
  simp only [Sys.store, ht] at hop
  cases c with
  | new e =>
    injection hop with hop; subst hop
    refine ⟨⟨⟨?_, ?_⟩, fun b e => by cases e⟩, fun _ _ e => by cases e⟩
    · intro i h1 h2
      simp at h2
      have : i = o := by omega
      rw [this]; exact hf
    · intro b hb
      simp only [List.mem_singleton] at hb
      subst hb
      exact ⟨hraw, .inr rfl⟩
  | delete e =>
    injection hop with hop; subst hop
    refine ⟨⟨(I.live e hc.1).1, ?_⟩, fun _ _ e => by cases e⟩
    intro b hb hk r q hp hq hw hon
    injection hb with hb; subst hb
    have := I.rdb hk r q hp hq hw e hc.1 hon
    rw [hnr (fun _ _ e => by cases e)] at this; cases this
  | write p e =>
    injection hop with hop; subst hop
    have hn := hnr (fun _ _ e => by cases e)
    obtain ⟨h1, h2⟩ := hc
    refine ⟨⟨hfr, (I.live e h1).1, by rw [(I.mem p h2).1, (I.live e h1).2], ?_, ?_⟩, fun _ _ e => by cases e⟩
    · intro r' q hp hq hb
      rcases I.buf r' q hp hq (by omega) (by omega) with h | h
      · exact ⟨h.1, rfl⟩
      · rw [hn] at h; cases h
    · intro _ hk r' q hp hq hw hon
      have := I.rdb hk r' q hp hq hw e h1 hon
      rw [hn] at this; cases this
  | wait => cases hop
  | read p e =>
    simp only at hop
    split at hop
    · rename_i hn
      injection hop with hop; subst hop
      have hn : s.rd = none := by simpa using hn
      obtain ⟨h1, _, h2, h3⟩ := hc
      refine ⟨⟨hfr, (I.live e h1).1, by rw [(I.mem p h2).1, (I.live e h1).2], ?_, fun e => by cases e⟩, fun _ _ e => by cases e⟩
      intro r' q hp hq hb
      exact absurd hb (I.quiet hn (hlen (n := 0) h3) h2 r' q hp hq)
    · cases hop
  | fill p =>
    injection hop with hop; subst hop
    exact ⟨I.quiet (hnr (fun _ _ e => by cases e)) (hlen (n := 0) hc.2) hc.1, fun _ _ e => by cases e⟩
  | put p v =>
    injection hop with hop; subst hop
    exact ⟨I.quiet (hnr (fun _ _ e => by cases e)) (hlen (n := 0) hc.2.1) hc.1, fun _ _ e => by cases e⟩

/-- An event that makes a step of the store. -/
theorem via_ok {op : Store.Op} {f : Store.St → Sys} {s' : Sys} (h : s.via k qid op f = .ok s') : ∃ d, Store.step k qid s.d op = some d ∧ s' = f d := by
  unfold Sys.via at h
  split at h
  · rename_i d hd
    injection h with h
    exact ⟨d, hd, h.symm⟩
  · cases h

theorem notdone {J : Store.Inv k qid cfgs s.d h} {r : Nat} (hfr : s.d.reqs r = none) (i : Nat) : r ∉ (s.d.qs i).cancelled ∧ r ∉ (s.d.qs i).served := by
  constructor
  · intro hc
    have hord := Queue.reach_ord (J.que i)
    obtain ⟨⟨y, w⟩, g1, g2⟩ := List.mem_map.1 (hord.ca r hc)
    simp only at g2; subst g2
    obtain ⟨q2, g3, _⟩ := J.sub _ _ _ g1
    rw [hfr] at g3; cases g3
  · intro hc
    obtain ⟨⟨y, w⟩, g1, g2⟩ := List.mem_map.1 (J.served i r hc)
    simp only at g2; subst g2
    obtain ⟨q2, g3, _⟩ := J.sub _ _ _ g1
    rw [hfr] at g3; cases g3

theorem over_done {r : Nat} (h : over qid s.d r = true) : ¬ Store.Pending qid s.d r := by
  intro ⟨q, h1, h2, h3⟩
  unfold over at h
  rw [h1] at h
  simp only [Bool.or_eq_true, List.contains_iff_mem] at h
  rcases h with h | h
  · exact h2 h
  · exact h3 h

/-- Allocation. -/
theorem MI.new (I : MI k qid cfgs max g s h fu x) (hraw : 0 < g.raw) {e : Nat} {l : List Cmd} (hrd : s.rd = none)
    (he : e ∉ s.own) {f : Nat → Nat} {o : Nat} (hf : f o < s.d.m.mgr.disks.length) {mgr : Mgr.Manager} {b : Mgr.Bid}
    (hn : s.d.m.mgr.newBlocks f o [⟨.null, 0, g.raw, g.raw⟩] = (mgr, [b], .ok ())) {d' : Store.St}
    (ha : Store.Allowed k qid s.d (.mgr (.new f o [⟨.null, 0, g.raw, g.raw⟩])))
    (hs : Store.step k qid s.d (.mgr (.new f o [⟨.null, 0, g.raw, g.raw⟩])) = some d') :
    MI k qid cfgs max g { s with d := d', bid := Store.upd s.bid e b, own := e :: s.own, todo := l } h (fun j => j ≠ e ∧ fu j) x := by
  have J := Store.life_inv I.life
  have E := Store.step_eff J ha hs
  obtain ⟨n1, n2, n3⟩ := new_fresh J.mgr hraw hf hn
  have hd' : d'.m = s.d.m.step (.new f o [⟨.null, 0, g.raw, g.raw⟩]) ∧ d'.qs = s.d.qs ∧ d'.reqs = s.d.reqs ∧ d'.mem = s.d.mem := by
    simp only [Store.step] at hs; injection hs with hs; subst hs; exact ⟨rfl, rfl, rfl, rfl⟩
  obtain ⟨e1, e2, e3, e4⟩ := hd'
  have hpe : ∀ r, Store.Pending qid d' r ↔ Store.Pending qid s.d r := by
    intro r; unfold Store.Pending; rw [e2, e3]
  have hbid : ∀ j ∈ s.own, Store.upd s.bid e b j = s.bid j := by
    intro j hj
    have : j ≠ e := fun h => he (h ▸ hj)
    simp [Store.upd, this]
  have hbe : Store.upd s.bid e b e = b := by simp [Store.upd]
  have hne : ∀ j ∈ s.own, s.bid j ≠ b := fun j hj h => n2 (h ▸ (I.live j hj).1)
  refine ⟨.next _ I.life ha (fun _ _ e => by cases e) hs, ?_, ?_, ?_, ?_, ?_, ?_, ?_⟩
  · intro i hi j hj hij
    change Store.upd s.bid e b i = Store.upd s.bid e b j at hij
    simp only [List.mem_cons] at hi hj
    rcases hi with rfl | hi
    · rcases hj with rfl | hj
      · rfl
      · rw [hbe, hbid j hj] at hij; exact absurd hij.symm (hne j hj)
    · rcases hj with rfl | hj
      · rw [hbe, hbid i hi] at hij; exact absurd hij (hne i hi)
      · rw [hbid i hi, hbid j hj] at hij; exact I.inj i hi j hj hij
  · intro j hj
    show Store.upd s.bid e b j ∈ d'.m.live ∧ (Store.upd s.bid e b j).size = _
    rw [e1, n1]
    simp only [List.mem_cons] at hj
    rcases hj with rfl | hj
    · rw [hbe]; exact ⟨by simp, n3⟩
    · rw [hbid j hj]; exact ⟨by simp [(I.live j hj).1], (I.live j hj).2⟩
  · intro j hj hu
    simp only [List.mem_cons] at hj
    have hj : j ∈ s.own := hj.resolve_left hu.1
    show Val qid d' h s.out (Store.upd s.bid e b j) _
    rw [hbid j hj]
    exact (I.val j hj hu.2).keep J (I.live j hj).1 E (fun _ _ e => by cases e) rfl (fun _ h => h)
  · intro hk r q hp hq hw j hj hon
    change q.On (Store.upd s.bid e b j) at hon
    rw [show Sys.d { s with d := d', bid := Store.upd s.bid e b, own := e :: s.own, todo := l } = d' from rfl] at hp hq
    rw [hpe] at hp; rw [e3] at hq
    simp only [List.mem_cons] at hj
    rcases hj with rfl | hj
    · rw [hbe] at hon
      obtain ⟨c, hc1, hc2⟩ := (J.rd r q hp hq hw).2.2 hk
      have hb' : b ∈ d'.m.live := by rw [e1, n1]; simp
      have hc' : c ∈ d'.m.live := by rw [e1, n1]; simp [hc1]
      have := on_eq (Store.life_inv (.next _ I.life ha (fun _ _ e => by cases e) hs)).mgr hb' hc' hon hc2
      exact absurd (this ▸ hc1) n2
    · rw [hbid j hj] at hon
      exact I.rdb hk r q hp hq hw j hj hon
  · intro r q hp hq h1 h2
    rw [show Sys.d { s with d := d', bid := Store.upd s.bid e b, own := e :: s.own, todo := l } = d' from rfl] at hp hq
    rw [hpe] at hp; rw [e3] at hq
    exact I.buf r q hp hq h1 h2
  · intro p hp
    show (d'.mem (g.base + p)).length = _ ∧ (_ → d'.mem (g.base + p) = _)
    rw [e4]
    obtain ⟨h1, h2⟩ := I.mem p hp
    exact ⟨h1, fun _ => h2 (fun r q hr => by rw [hrd] at hr; cases hr)⟩
  · intro r hr
    rw [show s.rd = some r from hr] at hrd; cases hrd

/-- Deletion. -/
theorem MI.delete (I : MI k qid cfgs max g s h fu x) {e : Nat} {l : List Cmd} (hrd : s.rd = none) (he : e ∈ s.own) {d' : Store.St}
    (ha : Store.Allowed k qid s.d (.mgr (.delete (s.bid e)))) (hs : Store.step k qid s.d (.mgr (.delete (s.bid e))) = some d') :
    MI k qid cfgs max g { s with d := d', own := s.own.filter (· != e), todo := l } (h.next s.d (.mgr (.delete (s.bid e)))) fu x := by
  have J := Store.life_inv I.life
  have E := Store.step_eff J ha hs
  have hd' : d'.qs = s.d.qs ∧ d'.reqs = s.d.reqs ∧ d'.mem = s.d.mem := by
    simp only [Store.step] at hs; injection hs with hs; subst hs; exact ⟨rfl, rfl, rfl⟩
  obtain ⟨e2, e3, e4⟩ := hd'
  have hpe : ∀ r, Store.Pending qid d' r ↔ Store.Pending qid s.d r := by
    intro r; unfold Store.Pending; rw [e2, e3]
  have hsub : ∀ j, j ∈ s.own.filter (· != e) → j ∈ s.own ∧ s.bid j ≠ s.bid e := by
    intro j hj
    obtain ⟨h1, h2⟩ := List.mem_filter.1 hj
    exact ⟨h1, fun h => by simp [I.inj j h1 e he h] at h2⟩
  have hof : ∀ b, b ≠ s.bid e → (h.next s.d (.mgr (.delete (s.bid e)))).of b = h.of b := by
    intro b hb
    simp only [Store.Hist.next, Store.Hist.of, List.filter_filter]
    refine List.filter_congr ?_
    intro y _
    by_cases h : y.b = b
    · simp [h, hb]
    · simp [h]
  refine ⟨.next _ I.life ha (fun _ _ e => by cases e) hs, ?_, ?_, ?_, ?_, ?_, ?_, ?_⟩
  · intro i hi j hj
    exact I.inj i (hsub i hi).1 j (hsub j hj).1
  · intro j hj
    obtain ⟨h1, h2⟩ := hsub j hj
    refine ⟨?_, (I.live j h1).2⟩
    rcases E.live _ (I.live j h1).1 with h | h
    · exact h
    · injection h with h; injection h with h
      exact absurd h.symm h2
  · intro j hj hu
    obtain ⟨h1, h2⟩ := hsub j hj
    exact (I.val j h1 hu).keep J (I.live j h1).1 E (fun _ _ e => by cases e) (hof _ h2) (fun _ h => h)
  · intro hk r q hp hq hw j hj hon
    rw [show Sys.d { s with d := d', own := s.own.filter (· != e), todo := l } = d' from rfl] at hp hq
    rw [hpe] at hp; rw [e3] at hq
    exact I.rdb hk r q hp hq hw j (hsub j hj).1 hon
  · intro r q hp hq h1 h2
    rw [show Sys.d { s with d := d', own := s.own.filter (· != e), todo := l } = d' from rfl] at hp hq
    rw [hpe] at hp; rw [e3] at hq
    exact I.buf r q hp hq h1 h2
  · intro p hp
    show (d'.mem (g.base + p)).length = _ ∧ (_ → d'.mem (g.base + p) = _)
    rw [e4]
    obtain ⟨h1, h2⟩ := I.mem p hp
    exact ⟨h1, fun _ => h2 (fun r q hr => by rw [hrd] at hr; cases hr)⟩
  · intro r hr
    rw [show s.rd = some r from hr] at hrd; cases hrd

/-- A buffer is filled. -/
theorem MI.fill (I : MI k qid cfgs max g s h fu x) {p : Nat} {v : Data} {l : List Cmd} (hrd : s.rd = none) (hv : v.length = g.raw) {d' : Store.St}
    (ha : Store.Allowed k qid s.d (.fill (g.base + p) v)) (hs : Store.step k qid s.d (.fill (g.base + p) v) = some d') :
    MI k qid cfgs max g { s with d := d', todo := l } h fu (fun j => if j = p then v else x.1 j, x.2) := by
  have J := Store.life_inv I.life
  have E := Store.step_eff J ha hs
  have hd' : d'.qs = s.d.qs ∧ d'.reqs = s.d.reqs ∧ d'.mem = Store.upd s.d.mem (g.base + p) v ∧ d'.m = s.d.m := by
    simp only [Store.step] at hs; injection hs with hs; subst hs; exact ⟨rfl, rfl, rfl, rfl⟩
  obtain ⟨e2, e3, e4, e5⟩ := hd'
  have hpe : ∀ r, Store.Pending qid d' r ↔ Store.Pending qid s.d r := by
    intro r; unfold Store.Pending; rw [e2, e3]
  refine ⟨.next _ I.life ha (fun _ _ e => by cases e) hs, I.inj, ?_, ?_, ?_, ?_, ?_, ?_⟩
  · intro j hj
    show s.bid j ∈ d'.m.live ∧ _
    rw [e5]; exact I.live j hj
  · intro j hj hu
    exact (I.val j hj hu).keep J (I.live j hj).1 E (fun _ _ e => by cases e) rfl (fun _ h => h)
  · intro hk r q hp hq hw j hj hon
    rw [show Sys.d { s with d := d', todo := l } = d' from rfl] at hp hq
    rw [hpe] at hp; rw [e3] at hq
    exact I.rdb hk r q hp hq hw j hj hon
  · intro r q hp hq h1 h2
    rw [show Sys.d { s with d := d', todo := l } = d' from rfl] at hp hq
    rw [hpe] at hp; rw [e3] at hq
    exact I.buf r q hp hq h1 h2
  · intro p' hp
    show (d'.mem (g.base + p')).length = _ ∧ (_ → d'.mem (g.base + p') = if p' = p then v else x.1 p')
    rw [e4]
    obtain ⟨h1, h2⟩ := I.mem p' hp
    by_cases e : p' = p
    · subst e
      simp [Store.upd, hv]
    · have : g.base + p' ≠ g.base + p := by omega
      simp only [Store.upd, this, if_false, e]
      exact ⟨h1, fun _ => h2 (fun r q hr => by rw [hrd] at hr; cases hr)⟩
  · intro r hr
    rw [show s.rd = some r from hr] at hrd; cases hrd

/-- A write. -/
theorem MI.write (I : MI k qid cfgs max g s h fu x) {p e r : Nat} {l : List Cmd} (hrd : s.rd = none) (he : e ∈ s.own) (hp : p < max) {d' : Store.St}
    (hfr : s.d.reqs r = none) (ha : Store.Allowed k qid s.d (.io r true (s.bid e) (g.base + p))) (hs : Store.step k qid s.d (.io r true (s.bid e) (g.base + p)) = some d') :
    MI k qid cfgs max g { s with d := d', out := r :: s.out, todo := l } (h.next s.d (.io r true (s.bid e) (g.base + p))) (fun j => j = e ∨ fu j)
      (x.1, fun j => if j = e then x.1 p else x.2 j) := by
  have J := Store.life_inv I.life
  have E := Store.step_eff J ha hs
  have hd' : d'.m = s.d.m ∧ d'.mem = s.d.mem := by
    simp only [Store.step] at hs
    split at hs
    · obtain ⟨q, _, h2⟩ := Store.queue_some hs
      subst h2; exact ⟨rfl, rfl⟩
    · cases hs
  obtain ⟨e1, e4⟩ := hd'
  have hofe : (h.next s.d (.io r true (s.bid e) (g.base + p))).of (s.bid e) = ⟨r, s.bid e, s.d.mem (g.base + p)⟩ :: h.of (s.bid e) := by
    simp [Store.Hist.next, Store.Hist.of]
  have hof : ∀ b, b ≠ s.bid e → (h.next s.d (.io r true (s.bid e) (g.base + p))).of b = h.of b := by
    intro b hb
    simp [Store.Hist.next, Store.Hist.of, Ne.symm hb]
  refine ⟨.next _ I.life ha (fun _ _ e => by cases e) hs, I.inj, ?_, ?_, ?_, ?_, ?_, ?_⟩
  · intro j hj
    show s.bid j ∈ d'.m.live ∧ _
    rw [e1]; exact I.live j hj
  · intro j hj hu
    show Val qid d' _ (r :: s.out) (s.bid j) (if j = e then x.1 p else x.2 j)
    by_cases hje : j = e
    · subst hje
      obtain ⟨dk, hst, _⟩ := Store.live_inside J.mgr (I.live j hj).1
      rw [if_pos rfl]
      refine ⟨dk, ⟨r, s.bid j, s.d.mem (g.base + p)⟩, hst, ?_, ?_, .inl (by simp)⟩
      · rw [hofe]
        have : r ∉ (d'.qs (qid dk)).cancelled := by
          intro hc
          rcases E.can' _ _ hc with h' | h'
          · exact (notdone (J := J) hfr _).1 h'
          · cases h'
        simp only [Store.last, List.find?_cons]
        simp [this]
      · exact (I.mem p hp).2 (fun r q hr => by rw [hrd] at hr; cases hr)
    · rw [if_neg hje]
      have hne : s.bid j ≠ s.bid e := fun h => hje (I.inj j hj e he h)
      exact (I.val j hj (hu.resolve_left hje)).keep J (I.live j hj).1 E (fun _ _ e => by cases e) (hof _ hne) (fun _ h => List.mem_cons_of_mem _ h)
  · intro hk r' q hp' hq hw j hj hon
    rcases E.pending hq hp' with ⟨h1, h2⟩ | ⟨w, b', buf, h1, h2, h3⟩
    · exact I.rdb hk r' q h2 h1 hw j hj hon
    · injection h1 with _ h1
      rw [h3] at hw
      rw [← h1] at hw; cases hw
  · intro r' q hp' hq h1 h2
    rcases E.pending hq hp' with ⟨h3, h4⟩ | ⟨w, b', buf, h3, h4, h5⟩
    · rcases I.buf r' q h4 h3 h1 h2 with h | h
      · exact .inl ⟨h.1, List.mem_cons_of_mem _ h.2⟩
      · exact .inr h
    · injection h3 with g0 g1
      subst g0
      rw [h5, ← g1]
      exact .inl ⟨rfl, by simp⟩
  · intro p' hp'
    show (d'.mem (g.base + p')).length = _ ∧ (_ → d'.mem (g.base + p') = x.1 p')
    rw [e4]
    obtain ⟨h1, h2⟩ := I.mem p' hp'
    exact ⟨h1, fun _ => h2 (fun r q hr => by rw [hrd] at hr; cases hr)⟩
  · intro r hr
    rw [show s.rd = some r from hr] at hrd; cases hrd

/-- The end of a write. -/
theorem MI.wait (I : MI k qid cfgs max g s h fu x) {r : Nat} {rest : List Nat} {l : List Cmd} (hrd : s.rd = none) (ho : s.out = r :: rest)
    (hov : over qid s.d r = true) (hnf : r ∉ s.d.failed) : MI k qid cfgs max g { s with out := rest, todo := l } h fu x := by
  have hnp := over_done hov
  refine ⟨I.life, I.inj, I.live, ?_, I.rdb, ?_, I.mem, ?_⟩
  · intro j hj hu
    obtain ⟨dk, w, h1, h2, h3, h4⟩ := I.val j hj hu
    refine ⟨dk, w, h1, h2, h3, ?_⟩
    rcases h4 with h4 | h4
    · rw [ho] at h4
      simp only [List.mem_cons] at h4
      rcases h4 with h4 | h4
      · rw [h4]; exact .inr ⟨hnp, hnf⟩
      · exact .inl h4
    · exact .inr h4
  · intro r' q hp hq h1 h2
    rcases I.buf r' q hp hq h1 h2 with h | h
    · refine .inl ⟨h.1, ?_⟩
      have h := h.2
      rw [ho] at h
      simp only [List.mem_cons] at h
      rcases h with rfl | h
      · exact absurd hp hnp
      · exact h
    · exact .inr h
  · intro r hr
    rw [show s.rd = some r from hr] at hrd; cases hrd

/-- A read is issued. -/
theorem MI.issue (I : MI k qid cfgs max g s h fu x) {p e r : Nat} {l : List Cmd} (ht : s.todo = .read p e :: l) (hrd : s.rd = none) (ho : s.out = [])
    (he : e ∈ s.own) (hu : fu e) (hp : p < max) {d' : Store.St} (hfr : s.d.reqs r = none)
    (ha : Store.Allowed k qid s.d (.io r false (s.bid e) (g.base + p))) (hs : Store.step k qid s.d (.io r false (s.bid e) (g.base + p)) = some d') :
    MI k qid cfgs max g { s with d := d', rd := some r } (h.next s.d (.io r false (s.bid e) (g.base + p))) fu x := by
  have J := Store.life_inv I.life
  have E := Store.step_eff J ha hs
  obtain ⟨dk, hst, _⟩ := Store.live_inside J.mgr (I.live e he).1
  have hd' : d'.m = s.d.m ∧ d'.mem = s.d.mem ∧ d'.reqs r = some ⟨dk, false, (s.bid e).off, g.raw, g.base + p⟩ := by
    simp only [Store.step, hst] at hs
    obtain ⟨q, _, h2⟩ := Store.queue_some hs
    subst h2; exact ⟨rfl, rfl, by simp [Store.upd, (I.live e he).2]⟩
  obtain ⟨e1, e4, e5⟩ := hd'
  have hnc : r ∉ (d'.qs (qid dk)).cancelled := by
    intro hc
    rcases E.can' _ _ hc with h' | h'
    · exact (notdone (J := J) hfr _).1 h'
    · cases h'
  have hns : r ∉ (d'.qs (qid dk)).served := by
    intro hc
    rcases E.srv' _ _ hc with h' | ⟨os, h', _⟩
    · exact (notdone (J := J) hfr _).2 h'
    · cases h'
  have hof : ∀ b, (h.next s.d (.io r false (s.bid e) (g.base + p))).of b = h.of b := fun _ => rfl
  refine ⟨.next _ I.life ha (fun _ _ e => by cases e) hs, I.inj, ?_, ?_, ?_, ?_, ?_, ?_⟩
  · intro j hj
    show s.bid j ∈ d'.m.live ∧ _
    rw [e1]; exact I.live j hj
  · intro j hj hu
    exact (I.val j hj hu).keep J (I.live j hj).1 E (fun _ _ e => by cases e) (hof _) (fun _ h => h)
  · intro hk r' q hp' hq hw j hj hon
    show some r = some r'
    rcases E.pending hq hp' with ⟨h1, h2⟩ | ⟨w, b', buf, h1, h2, h3⟩
    · have := I.rdb hk r' q h2 h1 hw j hj hon
      rw [hrd] at this; cases this
    · injection h1 with h1; rw [h1]
  · intro r' q hp' hq h1 h2
    rcases E.pending hq hp' with ⟨h3, h4⟩ | ⟨w, b', buf, h3, h4, h5⟩
    · rcases I.buf r' q h4 h3 h1 h2 with h | h
      · exact .inl h
      · rw [hrd] at h; cases h
    · injection h3 with h3; exact .inr (by rw [h3])
  · intro p' hp'
    show (d'.mem (g.base + p')).length = _ ∧ (_ → d'.mem (g.base + p') = x.1 p')
    rw [e4]
    obtain ⟨h1, h2⟩ := I.mem p' hp'
    exact ⟨h1, fun _ => h2 (fun r q hr => by rw [hrd] at hr; cases hr)⟩
  · intro r' hr
    have hr : some r = some r' := hr
    injection hr with hr; subst hr
    refine ⟨p, e, l, dk, ht, he, hu, hp, ho, hst, e5, hnc, ?_, ?_⟩
    · intro _
      obtain ⟨dk', w, h1, h2, h3, h4⟩ := I.val e he hu
      rw [hst] at h1; injection h1 with h1; subst h1
      have h4 : ¬ Store.Pending qid s.d w.r ∧ w.r ∉ s.d.failed := h4.resolve_left (by rw [ho]; simp)
      obtain ⟨q, hq, _⟩ := entry_req J (I.live e he).1 hst (List.mem_of_find?_eq_some h2)
      obtain ⟨k1, k2⟩ := done_keep E hq h4
      refine ⟨w, ?_, k2, k1, h3⟩
      rw [← h2, ← last_keep (h' := h) J (I.live e he).1 hst E (fun _ _ e => by cases e) rfl]
      simp [Store.Hist.next, Store.upd]
    · intro hnp
      exact absurd ⟨_, e5, hns, hnc⟩ hnp

/-- The end of a read. -/
theorem MI.arrive (I : MI k qid cfgs max g s h fu x) {p e r : Nat} {l : List Cmd} (ht : s.todo = .read p e :: l) (hrd : s.rd = some r)
    (hov : over qid s.d r = true) (hnf : r ∉ s.d.failed) :
    MI k qid cfgs max g { s with rd := none, todo := l } h fu (fun j => if j = p then x.2 e else x.1 j, x.2) := by
  have hnp := over_done hov
  obtain ⟨p', e', l', dk, h1, h2, h3, h4, hout, h5, h6, h7, h8, h9⟩ := I.rd r hrd
  rw [ht] at h1; injection h1 with h1 _; injection h1 with h1 h1'; subst h1; subst h1'
  refine ⟨I.life, I.inj, I.live, I.val, ?_, ?_, ?_, ?_⟩
  · intro hk r' q hp hq hw j hj hon
    have := I.rdb hk r' q hp hq hw j hj hon
    rw [hrd] at this; injection this with this; subst this
    exact absurd hp hnp
  · intro r' q hp hq g1 g2
    rcases I.buf r' q hp hq g1 g2 with h | h
    · exact .inl h
    · rw [hrd] at h; injection h with h; subst h
      exact absurd hp hnp
  · intro p'' hp''
    obtain ⟨g1, g2⟩ := I.mem p'' hp''
    refine ⟨g1, fun _ => ?_⟩
    show s.d.mem (g.base + p'') = if p'' = p then x.2 e else x.1 p''
    by_cases ep : p'' = p
    · subst ep; rw [if_pos rfl]; exact h9 hnp hnf
    · rw [if_neg ep]
      refine g2 ?_
      intro r' q hr hq
      rw [hrd] at hr; injection hr with hr; subst hr
      rw [h6] at hq; injection hq with hq; subst hq
      show g.base + p ≠ _
      omega
  · intro r hr; cases hr

/-- A command. -/
theorem MI.cmd (I : MI k qid cfgs max g s h fu x) (hraw : 0 < g.raw) (hdl : g.dflt.length = g.raw) {c : Cmd} {l : List Cmd} (ht : s.todo = c :: l)
    (hc : (s.chk fu).can max g.raw c) {r : Nat} {f : Nat → Nat} {o : Nat} (hfr : s.d.reqs r = none) (hf : f o < s.d.m.mgr.disks.length) {s' : Sys}
    (hs : s.exec k qid g r f o c l = .ok s') :
    s'.c = s.c ∧ s'.cur = s.cur ∧
    ((MI k qid cfgs max g s' (E2E.after s.d h (s.store g (.cmd r f o))) ((s.chk fu).next c).full (eff g.dflt x c) ∧
        s'.todo = l ∧ s'.chk ((s.chk fu).next c).full = (s.chk fu).next c) ∨
      (MI k qid cfgs max g s' (E2E.after s.d h (s.store g (.cmd r f o))) fu x ∧ s'.todo = s.todo ∧ s'.chk fu = s.chk fu)) := by
  have hnr : (∀ p e, c ≠ .read p e) → s.rd = none := fun h => I.norun (fun p e l' e' => by rw [ht] at e'; injection e' with e' _; exact h p e e')
  have hR := fun op hop => I.ready hraw ht hc hfr hf (op := op) hop
  have hlen : (s.chk fu).n = 0 → s.out = [] := fun h => List.length_eq_zero_iff.1 h
  cases c with
  | new e =>
    simp only [Sys.exec] at hs
    split at hs
    · rename_i mgr b hn
      obtain ⟨d', h1, h2⟩ := via_ok hs
      subst h2
      have hst : s.store g (.cmd r f o) = some (.mgr (.new f o [⟨.null, 0, g.raw, g.raw⟩])) := by simp only [Sys.store, ht]
      rw [hst]
      refine ⟨rfl, rfl, .inl ⟨I.new hraw (hnr (fun _ _ e => by cases e)) hc hf hn (hR _ hst).1 h1, rfl, ?_⟩⟩
      simp only [Sys.chk, Chk.next, List.mem_cons]
    · cases hs
  | delete e =>
    simp only [Sys.exec] at hs
    obtain ⟨d', h1, h2⟩ := via_ok hs
    subst h2
    have hst : s.store g (.cmd r f o) = some (.mgr (.delete (s.bid e))) := by simp only [Sys.store, ht]
    rw [hst]
    refine ⟨rfl, rfl, .inl ⟨I.delete (hnr (fun _ _ e => by cases e)) hc.1 (hR _ hst).1 h1, rfl, ?_⟩⟩
    simp only [Sys.chk, Chk.next, List.mem_filter, bne_iff_ne, ne_eq]
    congr 1
    funext j
    exact propext ⟨fun h => ⟨h.2, h.1⟩, fun h => ⟨h.2, h.1⟩⟩
  | write p e =>
    simp only [Sys.exec] at hs
    obtain ⟨d', h1, h2⟩ := via_ok hs
    subst h2
    have hst : s.store g (.cmd r f o) = some (.io r true (s.bid e) (g.base + p)) := by simp only [Sys.store, ht]
    rw [hst]
    exact ⟨rfl, rfl, .inl ⟨I.write (hnr (fun _ _ e => by cases e)) hc.1 hc.2 hfr (hR _ hst).1 h1, rfl, rfl⟩⟩
  | wait =>
    simp only [Sys.exec] at hs
    have hst : s.store g (.cmd r f o) = none := by simp only [Sys.store, ht]
    rw [hst]
    split at hs
    · cases hs
    · rename_i r' rest ho
      split at hs
      · rename_i hov
        split at hs
        · cases hs
        · rename_i hnf
          injection hs with hs; subst hs
          refine ⟨rfl, rfl, .inl ⟨I.wait (hnr (fun _ _ e => by cases e)) ho hov (by simpa using hnf), rfl, ?_⟩⟩
          simp [Sys.chk, Chk.next, ho]
      · cases hs
  | read p e =>
    simp only [Sys.exec] at hs
    split at hs
    · rename_i hrd
      obtain ⟨d', h1, h2⟩ := via_ok hs
      subst h2
      have hst : s.store g (.cmd r f o) = some (.io r false (s.bid e) (g.base + p)) := by simp only [Sys.store, ht, hrd]; rfl
      rw [hst]
      obtain ⟨c1, c2, c3, c4⟩ := hc
      exact ⟨rfl, rfl, .inr ⟨I.issue ht hrd (hlen c4) c1 c2 c3 hfr (hR _ hst).1 h1, rfl, rfl⟩⟩
    · rename_i r' hrd
      have hst : s.store g (.cmd r f o) = none := by simp only [Sys.store, ht, hrd]; rfl
      rw [hst]
      split at hs
      · rename_i hov
        split at hs
        · cases hs
        · rename_i hnf
          injection hs with hs; subst hs
          exact ⟨rfl, rfl, .inl ⟨I.arrive ht hrd hov (by simpa using hnf), rfl, rfl⟩⟩
      · cases hs
  | fill p =>
    simp only [Sys.exec] at hs
    obtain ⟨d', h1, h2⟩ := via_ok hs
    subst h2
    have hst : s.store g (.cmd r f o) = some (.fill (g.base + p) g.dflt) := by simp only [Sys.store, ht]
    rw [hst]
    exact ⟨rfl, rfl, .inl ⟨I.fill (hnr (fun _ _ e => by cases e)) hdl (hR _ hst).1 h1, rfl, rfl⟩⟩
  | put p v =>
    simp only [Sys.exec] at hs
    obtain ⟨d', h1, h2⟩ := via_ok hs
    subst h2
    have hst : s.store g (.cmd r f o) = some (.fill (g.base + p) v) := by simp only [Sys.store, ht]
    rw [hst]
    exact ⟨rfl, rfl, .inl ⟨I.fill (hnr (fun _ _ e => by cases e)) hc.2.2 (hR _ hst).1 h1, rfl, rfl⟩⟩

end Foxxll.SwapStore
