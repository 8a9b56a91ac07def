import Verif.Spec.DiskQueues
import Verif.Proofs.OpenFile
/-
Lemmas about the map of queues.
-/
set_option linter.unusedSimpArgs false
namespace Foxxll.DiskQ

theorem set_same (m : Map) (i : Int) (q : Queue) : m.set i q i = some q := by simp [Map.set]

theorem set_other (m : Map) {i j : Int} (q : Queue) (h : j ≠ i) : m.set i q j = m j := by simp [Map.set, h]

/-- State after the calls `h`: a queue exists for `i` iff a call used `i`; type and length are those
of the first; the requests are those waiting. -/
def Inv (h : List Op) (m : Map) : Prop :=
  ∀ i, match m i with
    | none => (∀ o ∈ h, o.file.queue ≠ i) ∧ waiting i h = []
    | some q => ∃ pre o post, h = pre ++ o :: post ∧ (∀ x ∈ pre, x.file.queue ≠ i) ∧ o.file.queue = i ∧
        q = { fresh o.file with reqs := waiting i h }

theorem waiting_snoc (i : Int) (h : List Op) (o : Op) : waiting i (h ++ [o]) = effect i (waiting i h) o := by
  simp [waiting]

theorem effect_other {i : Int} {o : Op} (h : o.file.queue ≠ i) (l : List Nat) : effect i l o = l := by
  cases o <;> simp_all [effect, Op.file]

/-- Queues not used by the call. -/
theorem inv_other {h : List Op} {m m' : Map} {o : Op} {i : Int} (hi : o.file.queue ≠ i) (hm : m' i = m i)
    (hI : match m i with
      | none => (∀ o ∈ h, o.file.queue ≠ i) ∧ waiting i h = []
      | some q => ∃ pre o post, h = pre ++ o :: post ∧ (∀ x ∈ pre, x.file.queue ≠ i) ∧ o.file.queue = i ∧
        q = { fresh o.file with reqs := waiting i h }) :
    match m' i with
      | none => (∀ x ∈ h ++ [o], x.file.queue ≠ i) ∧ waiting i (h ++ [o]) = []
      | some q => ∃ pre x post, h ++ [o] = pre ++ x :: post ∧ (∀ x ∈ pre, x.file.queue ≠ i) ∧ x.file.queue = i ∧
        q = { fresh x.file with reqs := waiting i (h ++ [o]) } := by
  rw [hm, waiting_snoc, effect_other hi]
  cases hq : m i with
  | none =>
    rw [hq] at hI
    refine ⟨?_, hI.2⟩
    intro x hx
    simp only [List.mem_append, List.mem_singleton] at hx
    rcases hx with hx | rfl
    · exact hI.1 x hx
    · exact hi
  | some q =>
    rw [hq] at hI
    obtain ⟨pre, x, post, h1, h2, h3, h4⟩ := hI
    exact ⟨pre, x, post ++ [o], by rw [h1]; simp, h2, h3, h4⟩

/-- The first call that uses a queue. -/
theorem inv_first {h : List Op} {m' : Map} {o : Op} {i : Int} {q : Queue} (hi : o.file.queue = i) (hm : m' i = some q)
    (h1 : ∀ x ∈ h, x.file.queue ≠ i) (hq : q = { fresh o.file with reqs := waiting i (h ++ [o]) }) :
    match m' i with
      | none => (∀ x ∈ h ++ [o], x.file.queue ≠ i) ∧ waiting i (h ++ [o]) = []
      | some q => ∃ pre x post, h ++ [o] = pre ++ x :: post ∧ (∀ x ∈ pre, x.file.queue ≠ i) ∧ x.file.queue = i ∧
        q = { fresh x.file with reqs := waiting i (h ++ [o]) } := by
  rw [hm]; exact ⟨h, o, [], rfl, h1, hi, hq⟩

/-- Later calls. -/
theorem inv_later {h : List Op} {m' : Map} {o : Op} {i : Int} {q : Queue} (hm : m' i = some q)
    (h1 : ∃ pre x post, h = pre ++ x :: post ∧ (∀ x ∈ pre, x.file.queue ≠ i) ∧ x.file.queue = i ∧
        q = { fresh x.file with reqs := waiting i (h ++ [o]) }) :
    match m' i with
      | none => (∀ x ∈ h ++ [o], x.file.queue ≠ i) ∧ waiting i (h ++ [o]) = []
      | some q => ∃ pre x post, h ++ [o] = pre ++ x :: post ∧ (∀ x ∈ pre, x.file.queue ≠ i) ∧ x.file.queue = i ∧
        q = { fresh x.file with reqs := waiting i (h ++ [o]) } := by
  rw [hm]
  obtain ⟨pre, x, post, h2, h3, h4, h5⟩ := h1
  exact ⟨pre, x, post ++ [o], by rw [h2]; simp, h3, h4, h5⟩

theorem enqueue_same (q : Queue) (r : Nat) : enqueue q q.aio r = .ok { q with reqs := q.reqs ++ [r] } := by
  unfold enqueue; cases q.aio <;> rfl

theorem step_inv {h : List Op} {m : Map} {o : Op} {fs : List File} (hI : Inv h m) (hc : Compatible fs)
    (hh : ∀ x ∈ h, x.file ∈ fs) (ho : o.file ∈ fs) (hl : ∀ f r, o = .cancel f r → Op.add f r ∈ h) :
    ∃ m', step m o = .ok m' ∧ Inv (h ++ [o]) m' := by
  cases o with
  | make f =>
    refine ⟨_, rfl, ?_⟩
    intro i
    have hi := hI i
    by_cases e : f.queue = i
    · subst e
      unfold makeQueue
      cases hm : m f.queue with
      | none =>
        rw [hm] at hi
        refine inv_first (q := fresh f) rfl (by simp [set_same]) hi.1 ?_
        rw [waiting_snoc, hi.2]; rfl
      | some q =>
        rw [hm] at hi
        refine inv_later (q := q) hm ?_
        rw [waiting_snoc]; exact hi
    · refine inv_other e ?_ hi
      unfold makeQueue
      cases hm : m f.queue with
      | none => exact set_other _ _ (fun e' => e e'.symm)
      | some q => rfl
  | add f r =>
    have hq := hI f.queue
    have haio : ((m f.queue).getD (fresh f)).aio = f.aio := by
      cases hm : m f.queue with
      | none => rfl
      | some q =>
        rw [hm] at hq
        obtain ⟨pre, x, post, h1, _, h3, h4⟩ := hq
        simp only [Option.getD_some]
        rw [h4]
        exact hc _ (hh x (by rw [h1]; simp)) _ ho h3
    have hres : addRequest m f r = .ok (m.set f.queue { (m f.queue).getD (fresh f) with reqs := ((m f.queue).getD (fresh f)).reqs ++ [r] }) := by
      unfold addRequest
      simp only
      rw [← haio, enqueue_same]
    refine ⟨_, hres, ?_⟩
    intro i
    have hi := hI i
    by_cases e : f.queue = i
    · subst e
      cases hm : m f.queue with
      | none =>
        rw [hm] at hi
        refine inv_first (q := { fresh f with reqs := [r] }) rfl ?_ hi.1 ?_
        · rw [set_same]; rfl
        · rw [waiting_snoc, hi.2]; simp [effect, Op.file]
      | some q =>
        rw [hm] at hi
        obtain ⟨pre, x, post, h1, h2, h3, h4⟩ := hi
        refine inv_later (q := { q with reqs := q.reqs ++ [r] }) ?_ ⟨pre, x, post, h1, h2, h3, ?_⟩
        · rw [set_same]; rfl
        · rw [waiting_snoc, h4]; simp [effect]
    · refine inv_other e ?_ hi
      exact set_other _ _ (fun e' => e e'.symm)
  | cancel f r =>
    have hadd := hl f r rfl
    have hq := hI f.queue
    cases hm : m f.queue with
    | none =>
      rw [hm] at hq
      exact absurd rfl (hq.1 _ hadd)
    | some q =>
      rw [hm] at hq
      obtain ⟨pre, x, post, h1, h2, h3, h4⟩ := hq
      have haio : q.aio = f.aio := by
        rw [h4]; exact hc _ (hh x (by rw [h1]; simp)) _ ho h3
      have hres : cancel m f r = .ok (m.set f.queue { q with reqs := q.reqs.erase r }, decide (r ∈ q.reqs)) := by
        unfold cancel; rw [hm]; simp only
        cases hf : f.aio with
        | true => rw [hf] at haio; simp [haio]
        | false => rw [hf] at haio; simp [haio]
      refine ⟨m.set f.queue { q with reqs := q.reqs.erase r }, by simp only [step, hres], ?_⟩
      intro i
      have hi := hI i
      by_cases e : f.queue = i
      · subst e
        refine inv_later (q := { q with reqs := q.reqs.erase r }) (by rw [set_same]) ⟨pre, x, post, h1, h2, h3, ?_⟩
        rw [waiting_snoc, h4]; simp [effect]
      · refine inv_other e ?_ hi
        exact set_other _ _ (fun e' => e e'.symm)

theorem inv_empty : Inv [] empty := by
  intro i
  exact ⟨by simp, rfl⟩

theorem run_inv {fs : List File} (hc : Compatible fs) : ∀ (os h : List Op) (m : Map), Inv h m → (∀ x ∈ h, x.file ∈ fs) →
    (∀ x ∈ os, x.file ∈ fs) → Legal h os → ∃ m', run m os = .ok m' ∧ Inv (h ++ os) m' := by
  intro os
  induction os with
  | nil => intro h m hI _ _ _; exact ⟨m, rfl, by simpa using hI⟩
  | cons o os ih =>
    intro h m hI hh ho hl
    obtain ⟨m1, h1, h2⟩ := step_inv (o := o) hI hc hh (ho o (by simp)) (by
      intro f r e; subst e; exact hl.1)
    have hh' : ∀ x ∈ h ++ [o], x.file ∈ fs := by
      intro x hx
      simp only [List.mem_append, List.mem_singleton] at hx
      rcases hx with hx | rfl
      · exact hh x hx
      · exact ho _ (by simp)
    obtain ⟨m2, h3, h4⟩ := ih (h ++ [o]) m1 h2 hh' (fun x hx => ho x (by simp [hx])) hl.2
    exact ⟨m2, by simp only [run, h1, h3], by simpa using h4⟩

/-! ### Files from `create_file` -/

open Foxxll.Open in
theorem createFile_queue {os : Os} {b : Build} {m : Mode} {a : Int} {s s' : St} {o : FileObj}
    (h : createFile os b m a s = (.ok o, s')) :
    o.queue = (if o.kind = .linuxaio then -2 else s.disk.queue) ∧ kindOf b s.disk.ioImpl = some o.kind ∧ o.alloc = a ∧
    o.queueLength = (if o.kind = .linuxaio then s.disk.queueLength else 0) := by
  obtain ⟨k, hk, h1, h0⟩ := createFile_ok h
  have hkk : o.kind = k := by rw [h0]
  have hq : o.queue = s'.disk.queue := by rw [h0]
  have hl : o.queueLength = if k = .linuxaio then s'.disk.queueLength else 0 := by rw [h0]
  rw [hkk, hq, hl]
  refine ⟨?_, hk, by rw [h0], ?_⟩
  all_goals
    have hs : s'.disk.queue = (setQueue k (setId s)).disk.queue ∧ s'.disk.queueLength = (setQueue k (setId s)).disk.queueLength := by
      rcases openKind_ok h1 with ⟨_, _, h2⟩ | ⟨_, f', s1, l, r, _, _, _, _, _, _, _, h7⟩
      · rw [h2]; exact ⟨rfl, rfl⟩
      · rcases h7 with ⟨h7, _⟩ | ⟨_, _, n, _, _, h7⟩
        · rw [h7]; exact ⟨rfl, rfl⟩
        · rw [h7]; exact ⟨rfl, rfl⟩
  · rw [hs.1]; unfold setQueue; split <;> rfl
  · rw [hs.2]; unfold setQueue; split <;> rfl

open Foxxll.Open in
/-- The files of all disks. -/
theorem openDisks_files {os : Os} {b : Build} {ds : List Config.Disk} : ∀ {i : Nat} {s s' : St} {l : List FileObj},
    openDisks os b i ds s = (.ok l, s') → l.length = ds.length ∧
      ∀ j o d, l[j]? = some o → ds[j]? = some d →
        kindOf b d.ioImpl = some o.kind ∧ o.alloc = ((i + j : Nat) : Int) ∧
        o.queue = if o.kind = .linuxaio then -2 else if d.queue = -1 then ((i + j : Nat) : Int) else d.queue := by
  induction ds with
  | nil => intro i s s' l h; cases h; exact ⟨rfl, by simp⟩
  | cons d ds ih =>
    intro i s s' l h
    unfold openDisks at h
    simp only [bind_ok, guard_ok, pure_ok] at h
    obtain ⟨o, s1, h1, l', s2, h2, rfl, rfl⟩ := h
    obtain ⟨h3, h4⟩ := ih h2
    refine ⟨by simp [h3], ?_⟩
    intro j o' d' hj hd
    cases j with
    | zero =>
      simp only [List.getElem?_cons_zero, Option.some.injEq] at hj hd
      subst hj; subst hd
      unfold openDisk at h1
      simp only [Prod.mk.injEq] at h1
      obtain ⟨h5, h6, h7, _⟩ := createFile_queue (o := o) (s' := (createFile os b { creat := true, rdwr := true } i { s with disk := queueOf i d }).2) (by rw [← h1.1])
      have hio : (queueOf i d).ioImpl = d.ioImpl := by unfold queueOf; split <;> rfl
      rw [hio] at h6
      refine ⟨h6, by simpa using h7, ?_⟩
      rw [h5]
      split
      · rfl
      · unfold queueOf; split <;> simp_all
    | succ j =>
      simp only [List.getElem?_cons_succ] at hj hd
      have := h4 j o' d' hj hd
      rw [show i + (j + 1) = i + 1 + j by omega]; exact this

end Foxxll.DiskQ
