import Verif.Proofs.PoolStoreMain
import Verif.Props.Pools
/-
Auxiliary lemmas and runs for the theorems of `Verif.Props.PoolStore`.
-/
namespace Foxxll.PoolStore
open Foxxll

variable {k : Queue.Kind} {qid : Nat → Nat} {cfgs : List (Nat × Bool)} {own : List Mgr.Bid} {loc : Nat → Nat} {raw : Nat}

theorem calm_oneQ {s : Sys} {ev : Ev} : Calm .oneQ qid own loc s ev := by
  cases ev <;> first | trivial | (intro h; cases h)

theorem run_imp {P Q : Sys → Ev → Prop} (hPQ : ∀ s ev, P s ev → Q s ev) {s : Sys} (hr : Run k qid cfgs own loc raw P s) : Run k qid cfgs own loc raw Q s := by
  induction hr with
  | start nw np rid h1 h2 h3 h4 h5 h6 => exact .start nw np rid h1 h2 h3 h4 h5 h6
  | next ev _ h2 h3 h4 ih => exact .next ev ih h2 (hPQ _ _ h3) h4

theorem settle_p {s s' : Sys} {p' : Pool.St V} {r : Nat} (h : s.settle k qid own loc p' r = some s') : s'.p = p' := by
  unfold Sys.settle at h
  repeat' split at h
  all_goals cases h
  all_goals rfl

theorem cancelRead_history {v p' : Pool.St V} (h : Pool.step true v .cancelRead = .ok p') : p'.last = v.last ∧ p'.upend = v.upend ∧ p'.results = v.results := by
  have := Pool.C20_history v p' .cancelRead h
  exact ⟨this.1, this.2⟩

theorem step_history {s s' : Sys} {ev : Ev} (hs : s.step k qid own loc ev = some s') :
    (s'.p.last = match ev, s.act with
      | .submit _, .drop blk bid _ _ => fun b => if b = bid then s.d.mem (loc blk) else s.p.last b
      | _, _ => s.p.last) ∧
    (match ev with
     | .call (.read _ b) _ => ∃ x r, s'.p.upend = s.p.upend ++ [⟨x, r, b, s.p.last b⟩]
     | .call (.collect i) _ => ∃ e, s.p.upend[i]? = some e ∧ s'.p.upend = s.p.upend.eraseIdx i ∧
        s'.p.results = s.p.results ++ [(e.bid, e.want, s.d.mem (loc e.blk))]
     | _ => s'.p.upend = s.p.upend ∧ s'.p.results = s.p.results) := by
  cases ev with
  | call op r =>
    simp only [Sys.step] at hs
    split at hs
    · rename_i hc
      simp only [Bool.and_eq_true, decide_eq_true_eq] at hc
      split at hs
      · rename_i p' hp
        rw [settle_p hs]
        have := Pool.C20_history _ _ op hp
        cases op <;> first | exact this | (exfalso; have := hc.2; cases this)
      · cases hs
    · cases hs
  | fill blk data =>
    simp only [Sys.step] at hs
    repeat' split at hs
    all_goals cases hs
    exact ⟨rfl, rfl, rfl⟩
  | write blk bid =>
    simp only [Sys.step] at hs
    repeat' split at hs
    all_goals cases hs
    exact ⟨rfl, rfl, rfl⟩
  | cancel =>
    simp only [Sys.step] at hs
    split at hs
    · split at hs
      · injection hs with hs; subst hs; exact ⟨rfl, rfl, rfl⟩
      · cases hs
    · cases hs
  | submit r =>
    simp only [Sys.step] at hs
    split at hs
    · rename_i blk bid canc hact
      split at hs
      · rename_i p' hp
        rw [settle_p hs, hact]
        have := Pool.C20_history _ _ _ hp
        exact this
      · cases hs
    · cases hs
  | cancelP =>
    simp only [Sys.step] at hs
    split at hs
    · split at hs
      · split at hs
        · rename_i p' hp
          injection hs with hs; subst hs
          have := cancelRead_history hp
          exact ⟨this.1, this.2.1, this.2.2⟩
        · cases hs
      · injection hs with hs; subst hs; exact ⟨rfl, rfl, rfl⟩
      · cases hs
    · cases hs
  | env op =>
    simp only [Sys.step] at hs
    repeat' split at hs
    all_goals cases hs
    exact ⟨rfl, rfl, rfl⟩

/-! ### Runs -/

def own2 : List Mgr.Bid := [Store.blk 0 0, Store.blk 0 2]
def sig : Ev := .env (.run 0 .signal Store.slow)
def wk (n : Nat) : List Ev := List.replicate n (.env (.run 0 .work Store.slow))

theorem base_life {d : Store.St} (h : base [(8, false)] = some d) : ∃ h, Store.Life k id [(8, false)] (Store.Orderly k) d h := by
  unfold base Store.start at h
  split at h
  · rename_i m hm
    simp only [Option.bind_some] at h
    refine ⟨_, Store.Life.next (.mgr (.new (fun _ => 0) 0 [⟨.null, 0, 2, 2⟩, ⟨.null, 0, 2, 2⟩])) (Store.Life.start hm (fun _ _ _ => rfl)) ?_ (fun _ _ e => by cases e) h⟩
    have hd : (match Mgr.Manager.create [(8, false)] with | .ok m => m.disks.length | .error _ => 0) = 1 := by decide +kernel
    rw [hm] at hd
    refine ⟨⟨fun i _ _ => ?_, ?_⟩, fun b hb => by cases hb⟩
    · show 0 < m.disks.length
      simp only at hd; omega
    · intro b hb
      simp only [List.mem_cons, List.not_mem_nil, or_false, or_self] at hb
      subst hb
      exact ⟨by decide, .inr rfl⟩
  · cases h

def baseOk : Bool := match base [(8, false)] with
  | none => false
  | some d => d.m.live.contains (Store.blk 0 0) && d.m.live.contains (Store.blk 0 2)

theorem witness_run {P : Sys → Ev → Prop} (pB : Sys → Ev → Bool) (hP : ∀ s ev, pB s ev = true → P s ev) (nw np : Nat) (evs : List Ev) (p : Sys → Bool)
    (hp : ((base [(8, false)]).bind fun d => (runB k id own2 id 2 pB (init own2 id nw np d id) [] evs).map p) = some true) :
    ∃ s, Run k id [(8, false)] own2 id 2 P s ∧ p s = true := by
  cases hb : base [(8, false)] with
  | none => rw [hb] at hp; cases hp
  | some d =>
    rw [hb] at hp
    simp only [Option.bind_some] at hp
    cases hr : runB k id own2 id 2 pB (init own2 id nw np d id) [] evs with
    | none => rw [hr] at hp; cases hp
    | some s =>
      rw [hr] at hp
      simp only [Option.map_some, Option.some.injEq] at hp
      obtain ⟨h, hl⟩ := base_life (k := k) hb
      have hreq : ∀ r, d.reqs r = none := by
        unfold base Store.start at hb
        split at hb
        · simp only [Option.bind_some, Store.step, Option.some.injEq] at hb; rw [← hb]; intro _; rfl
        · cases hb
      have hmem : ∀ r, d.mem r = [0, 0] := by
        unfold base Store.start at hb
        split at hb
        · simp only [Option.bind_some, Store.step, Option.some.injEq] at hb; rw [← hb]; intro _; rfl
        · cases hb
      have hok : baseOk = true := by decide +kernel
      unfold baseOk at hok
      rw [hb] at hok
      simp only [Bool.and_eq_true, List.contains_iff_mem] at hok
      refine ⟨s, runB_run hP (Run.start nw np id hl ?_ (by decide) (fun _ _ h => h) ?_ ?_) ?_ hr, hp⟩
      · intro b hb
        simp only [own2, List.mem_cons, List.not_mem_nil, or_false] at hb
        rcases hb with rfl | rfl
        · exact ⟨hok.1, rfl⟩
        · exact ⟨hok.2, rfl⟩
      · intro j; rw [hmem]; rfl
      · intro r q _ h2; rw [hreq] at h2; cases h2
      · intro r hr
        exact absurd (hreq r) hr

/-- Nothing has failed. -/
def fineB (s : Sys) : Bool := s.d.failed.isEmpty

theorem fineB_of {s : Sys} (h : fineB s = true) : s.Fine := by
  intro i _ hc
  unfold fineB at h
  rw [List.isEmpty_iff] at h
  rw [h] at hc; cases hc

def evsF : List Ev := [.call (.hint 1) 0, sig] ++ wk 1 ++ [.call (.invalidate 1 false) 91, .cancelP] ++ wk 3 ++ [.env (.run 0 .cancelTake Store.slow), .call (.work none []) 92,
  .call .alloc 93, .fill 2 [11, 12], .write 2 0, .submit 1, sig, .call .alloc 94, .call (.read 3 0) 95, .call .alloc 96, .call (.read 4 0) 2, sig] ++ wk 3 ++
  [.call (.collect 1) 97]

def okF (s : Sys) : Bool := s.p.results.contains (0, [11, 12], [0, 0]) && fineB s

theorem okF_of {s : Sys} (h : okF s = true) : (0, [11, 12], [0, 0]) ∈ s.p.results ∧ s.Fine := by
  simp only [okF, Bool.and_eq_true, List.contains_iff_mem] at h
  exact ⟨h.1, fineB_of h.2⟩

theorem evsF_run : ((base [(8, false)]).bind fun d => (runB .twoQ id own2 id 2 (fun _ _ => true) (init own2 id 0 2 d id) [] evsF).map okF) = some true := by
  decide +kernel

/-- `Calm`, decided. -/
def calmB (qid : Nat → Nat) (own : List Mgr.Bid) (loc : Nat → Nat) (s : Sys) : Ev → Bool
  | .cancel => match s.act with | .drop _ _ (i :: _) _ => s.served qid i | _ => true
  | .cancelP => match s.act with | .inval i => s.served qid i | _ => true
  | .submit _ => match s.act with | .drop _ bid _ _ => (s.view qid own loc).q.all (fun x => x.bid != bid || !x.rd) | _ => true
  | _ => true

theorem calmB_of {s : Sys} {ev : Ev} (h : calmB qid own loc s ev = true) : Calm k qid own loc s ev := by
  cases ev with
  | cancel =>
    intro _ blk bid i todo canc e
    simp only [calmB, e] at h
    exact h
  | cancelP =>
    intro _ i e
    simp only [calmB, e] at h
    exact h
  | submit r =>
    intro _ blk bid todo canc e x hx hb
    simp only [calmB, e, List.all_eq_true] at h
    simpa [hb] using h x hx
  | _ => trivial

/-- Both cancellations succeed. -/
def evs1 : List Ev := [.call .alloc 90, .fill 2 [11, 12], .write 2 0, .submit 1, sig, .call .alloc 93, .fill 3 [21, 22], .write 3 0, .cancel,
  .env (.run 0 .cancelTake Store.slow), .submit 2, sig, .call (.hint 1) 3, sig] ++ wk 1 ++
  [.call (.invalidate 1 false) 94, .cancelP, .env (.run 0 .cancelTake Store.slow)] ++ wk 2 ++ [.call (.work none []) 98, .call .alloc 95, .call (.read 4 0) 97,
  .call .alloc 99, .call (.read 5 0) 4, sig] ++ wk 4 ++ [.call (.collect 1) 100, .call (.collect 0) 101]

/-- Nothing is left to be canceled. -/
def evs2 : List Ev := [.call .alloc 90, .fill 2 [11, 12], .write 2 0, .submit 1, sig] ++ wk 4 ++ [.call .alloc 93, .fill 3 [21, 22], .write 3 0, .cancel, .submit 2, sig,
  .call (.hint 1) 3, sig, .call .alloc 95, .call (.read 4 0) 97, .call .alloc 99, .call (.read 5 0) 4, sig] ++ wk 19 ++
  [.call (.invalidate 1 false) 94, .cancelP, .call (.work none []) 98, .call (.collect 1) 100, .call (.collect 0) 101]

def pendB (s : Sys) : Bool := (List.range s.p.nextReq).any (fun i => Store.pendingB id s.d (s.rid i))

def okR (s : Sys) : Bool := s.p.results == [(0, [21, 22], [21, 22]), (0, [21, 22], [21, 22])] && fineB s && s.act == .idle && !pendB s

theorem okR_of {s : Sys} (h : okR s = true) : s.p.results = [(0, [21, 22], [21, 22]), (0, [21, 22], [21, 22])] ∧ s.Fine ∧ s.act = .idle ∧
    ∀ i, i < s.p.nextReq → ¬ Store.Pending id s.d (s.rid i) := by
  simp only [okR, Bool.and_eq_true, beq_iff_eq, Bool.not_eq_true', pendB, List.any_eq_false, List.mem_range] at h
  exact ⟨h.1.1.1, fineB_of h.1.1.2, h.1.2, fun i hi hp => h.2 i hi (Store.pendingB_of hp)⟩

def ok1 (s : Sys) : Bool := okR s && (s.d.qs 0).cancelled == [1, 3]

theorem evs1_run : ((base [(8, false)]).bind fun d => (runB .oneQ id own2 id 2 (fun _ _ => true) (init own2 id 0 2 d id) [] evs1).map ok1) = some true := by
  decide +kernel

theorem evs2_run : ((base [(8, false)]).bind fun d => (runB .twoQ id own2 id 2 (calmB id own2 id) (init own2 id 0 2 d id) [] evs2).map okR) = some true := by
  decide +kernel

end Foxxll.PoolStore
