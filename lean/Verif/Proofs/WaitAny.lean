/-
Invariants of `wait_any`.
-/
import Verif.Model.WaitAny
set_option linter.unusedSimpArgs false
set_option linter.unusedVariables false

namespace Foxxll.WaitAny

/-- Requests at which a call at this position may be registered. -/
def Where (l : List Nat) (r : Nat) : Pc → Prop
  | .idle => False
  | .add i => r ∈ l.take i
  | .undo j _ => r ∈ l.take (j + 1)
  | .chk _ => False
  | .test => r ∈ l
  | .asleep => r ∈ l
  | .del i _ => r ∈ l.drop i
  | .pol i _ => r ∈ l.drop (i + 1)
  | .ret _ => False
  | .thrown => r ∈ l

/-- Requests at which it must be registered. -/
def Must (l : List Nat) (r : Nat) : Pc → Prop
  | .add i => r ∈ l.take i
  | .test => r ∈ l
  | .asleep => r ∈ l
  | _ => False

def resOf : Pc → Option Nat
  | .undo _ res => some res
  | .chk res => some res
  | .del _ res => res
  | .pol _ res => res
  | .ret res => res
  | _ => none

def Bnd (n : Nat) : Pc → Prop
  | .undo j res => j < n ∧ res < n
  | .chk res => res < n
  | .pol i _ => i < n
  | _ => True

structure CInv (s : St) (t : Nat) : Prop where
  reg : ∀ r, t ∈ (s.req r).waiters → Where (s.args t) r (s.pc t)
  all : ∀ r, Must (s.args t) r (s.pc t) → t ∈ (s.req r).waiters
  son : alive (s.pc t) = true → s.on t = true → ∃ r ∈ s.args t, (s.req r).done = true
  res : ∀ i, resOf (s.pc t) = some i → ∃ r, (s.args t)[i]? = some r ∧ (s.req r).done = true
  bnd : Bnd (s.args t).length (s.pc t)

structure Inv (s : St) : Prop where
  nd : ∀ r, (s.req r).notified = true → (s.req r).done = true
  won : ∀ r t, t ∈ (s.req r).waiters → (s.req r).notified = true → s.on t = true
  c : ∀ t, CInv s t

theorem inv_init (args : Nat → List Nat) : Inv (init args) := by
  constructor
  · simp [init]
  · simp [init]
  · intro t
    constructor <;> simp [init, Must, resOf, Bnd]

/-- Where an exact change of `waiters` is recorded. -/
theorem CInv.frame {s s' : St} {t : Nat} (h : CInv s t) (ha : s'.args = s.args) (hp : s'.pc t = s.pc t)
    (hm : ∀ r, t ∈ (s'.req r).waiters ↔ t ∈ (s.req r).waiters)
    (hd : ∀ r, (s.req r).done = true → (s'.req r).done = true)
    (ho : alive (s.pc t) = true → s'.on t = true → s.on t = true ∨ ∃ r ∈ s.args t, (s'.req r).done = true) : CInv s' t := by
  obtain ⟨reg, all, son, res, bnd⟩ := h
  constructor
  · intro r hr
    rw [ha, hp]
    exact reg r ((hm r).1 hr)
  · intro r hr
    rw [ha, hp] at hr
    exact (hm r).2 (all r hr)
  · intro h1 h2
    rw [hp] at h1
    rw [ha]
    rcases ho h1 h2 with h3 | h3
    · obtain ⟨r, hr, hdr⟩ := son h1 h3
      exact ⟨r, hr, hd r hdr⟩
    · exact h3
  · intro i hi
    rw [hp] at hi
    obtain ⟨r, hr, hdr⟩ := res i hi
    exact ⟨r, by rw [ha]; exact hr, hd r hdr⟩
  · rw [ha, hp]; exact bnd

theorem upd_eq {α : Type} (f : Nat → α) (t : Nat) (a : α) : upd f t a t = a := by simp [upd]
theorem upd_ne {α : Type} (f : Nat → α) {t u : Nat} (a : α) (h : u ≠ t) : upd f t a u = f u := by simp [upd, h]

theorem mem_insertW {s : St} {r t r' u : Nat} :
    u ∈ ((insertW s r t).req r').waiters ↔ u ∈ (s.req r').waiters ∨ (u = t ∧ r' = r) := by
  simp only [insertW, upd]
  by_cases h : r' = r
  · subst h
    simp only [if_true]
    split
    · rename_i h
      constructor
      · exact .inl
      · rintro (h1 | ⟨rfl, _⟩)
        · exact h1
        · exact h
    · simp [or_comm]
  · simp [h]

theorem mem_deleteW {s : St} {r t r' u : Nat} :
    u ∈ ((deleteW s r t).req r').waiters ↔ u ∈ (s.req r').waiters ∧ ¬(u = t ∧ r' = r) := by
  simp only [deleteW, upd]
  by_cases h : r' = r
  · subst h
    simp
  · simp [h]

theorem insertW_same {s : St} {r t r' : Nat} : ((insertW s r t).req r').done = (s.req r').done ∧
    ((insertW s r t).req r').notified = (s.req r').notified ∧ ((insertW s r t).req r').err = (s.req r').err := by
  simp only [insertW, upd]
  by_cases h : r' = r <;> simp [h]

theorem deleteW_same {s : St} {r t r' : Nat} : ((deleteW s r t).req r').done = (s.req r').done ∧
    ((deleteW s r t).req r').notified = (s.req r').notified ∧ ((deleteW s r t).req r').err = (s.req r').err := by
  simp only [deleteW, upd]
  by_cases h : r' = r <;> simp [h]

theorem mem_take_succ {l : List Nat} {i r x : Nat} (h : l[i]? = some r) : x ∈ l.take (i + 1) ↔ x ∈ l.take i ∨ x = r := by
  rw [List.take_add_one, h]
  simp

theorem mem_drop_cons {l : List Nat} {i r x : Nat} (h : l[i]? = some r) : x ∈ l.drop i ↔ x = r ∨ x ∈ l.drop (i + 1) := by
  obtain ⟨hi, he⟩ := List.getElem?_eq_some_iff.1 h
  rw [List.drop_eq_getElem_cons hi, he]
  simp

theorem take_all {l : List Nat} {i : Nat} (h : l[i]? = none) : l.take i = l := by
  rw [List.getElem?_eq_none_iff] at h
  exact List.take_of_length_le h

theorem drop_all {l : List Nat} {i : Nat} (h : l[i]? = none) : l.drop i = [] := by
  rw [List.getElem?_eq_none_iff] at h
  exact List.drop_of_length_le h

/-- Only the position of call `t` changes. -/
theorem inv_setPc {s : St} {t : Nat} {p : Pc} (h : Inv s)
    (h1 : ∀ r, Where (s.args t) r (s.pc t) → Where (s.args t) r p)
    (h2 : ∀ r, Must (s.args t) r p → t ∈ (s.req r).waiters)
    (h3 : alive p = true → alive (s.pc t) = true)
    (h4 : ∀ i, resOf p = some i → ∃ r, (s.args t)[i]? = some r ∧ (s.req r).done = true)
    (h5 : Bnd (s.args t).length p) : Inv (setPc s t p) := by
  refine ⟨h.nd, h.won, ?_⟩
  intro u
  by_cases hu : u = t
  · subst hu
    have hp : (setPc s u p).pc u = p := upd_eq _ _ _
    constructor
    · intro r hr; rw [hp]; exact h1 r ((h.c u).reg r hr)
    · intro r hr; rw [hp] at hr; exact h2 r hr
    · intro ha ho; rw [hp] at ha; exact (h.c u).son (h3 ha) ho
    · intro i hi; rw [hp] at hi; exact h4 i hi
    · rw [hp]; exact h5
  · exact (h.c u).frame rfl (upd_ne _ _ hu) (fun _ => Iff.rfl) (fun _ => id) (fun _ => .inl)

theorem inv_deleteW {s : St} {t r : Nat} {p : Pc} (h : Inv s)
    (h1 : ∀ r', r' ≠ r → Where (s.args t) r' (s.pc t) → Where (s.args t) r' p)
    (h2 : ∀ r, ¬ Must (s.args t) r p)
    (h3 : alive p = true → alive (s.pc t) = true)
    (h4 : ∀ i, resOf p = some i → ∃ r, (s.args t)[i]? = some r ∧ (s.req r).done = true)
    (h5 : Bnd (s.args t).length p) : Inv (setPc (deleteW s r t) t p) := by
  refine ⟨?_, ?_, ?_⟩
  · intro r' hr'
    have : ((deleteW s r t).req r').notified = true := hr'
    rw [deleteW_same.2.1] at this
    show ((deleteW s r t).req r').done = true
    rw [deleteW_same.1]
    exact h.nd r' this
  · intro r' u hu hn
    have hn : ((deleteW s r t).req r').notified = true := hn
    rw [deleteW_same.2.1] at hn
    exact h.won r' u (mem_deleteW.1 hu).1 hn
  · intro u
    by_cases hu : u = t
    · subst hu
      have hp : (setPc (deleteW s r u) u p).pc u = p := upd_eq _ _ _
      constructor
      · intro r' hr'
        rw [hp]
        obtain ⟨ha, hb⟩ := mem_deleteW.1 hr'
        exact h1 r' (fun e => hb ⟨rfl, e⟩) ((h.c u).reg r' ha)
      · intro r' hr'; rw [hp] at hr'; exact absurd hr' (h2 r')
      · intro ha ho; rw [hp] at ha
        obtain ⟨x, hx, hxd⟩ := (h.c u).son (h3 ha) ho
        exact ⟨x, hx, by show ((deleteW s r u).req x).done = true; rw [deleteW_same.1]; exact hxd⟩
      · intro i hi; rw [hp] at hi
        obtain ⟨x, hx, hxd⟩ := h4 i hi
        exact ⟨x, hx, by show ((deleteW s r u).req x).done = true; rw [deleteW_same.1]; exact hxd⟩
      · rw [hp]; exact h5
    · refine (h.c u).frame rfl (upd_ne _ _ hu) ?_ ?_ (fun _ => .inl)
      · intro r'
        show u ∈ ((deleteW s r t).req r').waiters ↔ _
        rw [mem_deleteW]
        simp [hu]
      · intro r' hd
        show ((deleteW s r t).req r').done = true
        rw [deleteW_same.1]; exact hd

theorem inv_call {s s' : St} {t : Nat} (h : Inv s) (hs : callStep s t = .ok s') : Inv s' := by
  have hc := h.c t
  simp only [callStep] at hs
  split at hs
  · rename_i hpc
    injection hs with hs; subst hs
    have hno : ∀ r, t ∉ (s.req r).waiters := by
      intro r hr
      have := hc.reg r hr
      rw [hpc] at this
      exact this
    refine ⟨h.nd, ?_, ?_⟩
    · intro r u hu hn
      have hut : u ≠ t := by intro e; subst e; exact hno r hu
      show upd s.on t false u = true
      rw [upd_ne _ _ hut]
      exact h.won r u hu hn
    · intro u
      by_cases hu : u = t
      · subst hu
        constructor
        · intro r hr; exact absurd hr (hno r)
        · intro r hr; simp [upd, Must] at hr
        · intro _ ho; simp [upd] at ho
        · intro i hi; simp [upd, resOf] at hi
        · simp [upd, Bnd]
      · refine (h.c u).frame rfl (upd_ne _ _ hu) (fun _ => Iff.rfl) (fun _ => id) ?_
        intro _ ho
        left
        have : upd s.on t false u = true := ho
        rw [upd_ne _ _ hu] at this
        exact this
  · rename_i i hpc
    split at hs
    · rename_i hn
      injection hs with hs; subst hs
      apply inv_setPc h
      · intro r hr; rw [hpc] at hr; exact List.mem_of_mem_take hr
      · intro r hr
        apply hc.all
        rw [hpc]
        show r ∈ (s.args t).take i
        rw [take_all hn]; exact hr
      · intro _; rw [hpc]; rfl
      · intro j hj; simp [resOf] at hj
      · trivial
    · rename_i r hr
      split at hs
      · injection hs with hs; subst hs
        apply inv_setPc h
        · intro x hx; rw [hpc] at hx; exact List.mem_of_mem_take hx
        · intro x hx; exact hx.elim
        · intro ha; simp [alive] at ha
        · intro j hj; simp [resOf] at hj
        · trivial
      · split at hs
        · rename_i hd
          injection hs with hs; subst hs
          have hlt : i < (s.args t).length := (List.getElem?_eq_some_iff.1 hr).1
          apply inv_setPc h
          · intro x hx
            rw [hpc] at hx
            have hx : x ∈ (s.args t).take i := hx
            split
            · rename_i h0; subst h0; simp at hx
            · rename_i h0
              show x ∈ (s.args t).take (i - 1 + 1)
              have : i - 1 + 1 = i := by omega
              rw [this]; exact hx
          · intro x hx; split at hx <;> exact hx.elim
          · intro _; rw [hpc]; rfl
          · intro j hj
            have : j = i := by split at hj <;> simp [resOf] at hj <;> exact hj.symm
            subst this
            exact ⟨r, hr, hd⟩
          · split
            · exact hlt
            · exact ⟨by omega, hlt⟩
        · rename_i he hd
          injection hs with hs; subst hs
          refine ⟨?_, ?_, ?_⟩
          · intro r' hn
            have hn : ((insertW s r t).req r').notified = true := hn
            rw [insertW_same.2.1] at hn
            show ((insertW s r t).req r').done = true
            rw [insertW_same.1]
            exact h.nd r' hn
          · intro r' u hu hn
            have hn : ((insertW s r t).req r').notified = true := hn
            rw [insertW_same.2.1] at hn
            rcases mem_insertW.1 hu with h1 | ⟨_, e⟩
            · exact h.won r' u h1 hn
            · have hn := h.nd r' hn
              rw [e] at hn
              exact absurd hn hd
          · intro u
            by_cases hu : u = t
            · subst hu
              have hp : (setPc (insertW s r u) u (.add (i + 1))).pc u = .add (i + 1) := upd_eq _ _ _
              have ha : (setPc (insertW s r u) u (.add (i + 1))).args = s.args := rfl
              constructor
              · intro x hx
                rw [hp, ha]
                show x ∈ (s.args u).take (i + 1)
                rw [mem_take_succ hr]
                rcases mem_insertW.1 hx with h1 | ⟨_, rfl⟩
                · have := hc.reg x h1
                  rw [hpc] at this
                  exact .inl this
                · exact .inr rfl
              · intro x hx
                rw [hp, ha] at hx
                have hx : x ∈ (s.args u).take (i + 1) := hx
                rw [mem_take_succ hr] at hx
                apply mem_insertW.2
                rcases hx with hx | hx
                · exact .inl (hc.all x (by rw [hpc]; exact hx))
                · exact .inr ⟨rfl, hx⟩
              · intro _ ho
                obtain ⟨x, hx, hxd⟩ := hc.son (by rw [hpc]; rfl) ho
                exact ⟨x, hx, by show ((insertW s r u).req x).done = true; rw [insertW_same.1]; exact hxd⟩
              · intro j hj; rw [hp] at hj; simp [resOf] at hj
              · rw [hp]; trivial
            · refine (h.c u).frame rfl (upd_ne _ _ hu) ?_ ?_ (fun _ => .inl)
              · intro r'
                show u ∈ ((insertW s r t).req r').waiters ↔ _
                rw [mem_insertW]
                simp [hu]
              · intro r' hd
                show ((insertW s r t).req r').done = true
                rw [insertW_same.1]; exact hd
  · rename_i j res hpc
    split at hs
    · cases hs
    · rename_i r hr
      injection hs with hs; subst hs
      have hb := hc.bnd
      rw [hpc] at hb
      have hb : j < (s.args t).length ∧ res < (s.args t).length := hb
      apply inv_deleteW h
      · intro x hne hx
        rw [hpc] at hx
        have hx : x ∈ (s.args t).take (j + 1) := hx
        rw [mem_take_succ hr] at hx
        have hx : x ∈ (s.args t).take j := hx.resolve_right hne
        split
        · rename_i h0; subst h0; simp at hx
        · rename_i h0
          show x ∈ (s.args t).take (j - 1 + 1)
          have : j - 1 + 1 = j := by omega
          rw [this]; exact hx
      · intro x hx; split at hx <;> exact hx.elim
      · intro _; rw [hpc]; rfl
      · intro i hi
        have : i = res := by split at hi <;> simp [resOf] at hi <;> exact hi.symm
        subst this
        exact hc.res i (by rw [hpc]; rfl)
      · split
        · exact hb.2
        · exact ⟨by omega, hb.2⟩
  · rename_i res hpc
    split at hs
    · cases hs
    · rename_i r hr
      injection hs with hs; subst hs
      apply inv_setPc h
      · intro x hx; rw [hpc] at hx; exact hx.elim
      · intro x hx; split at hx <;> exact hx.elim
      · intro ha; split at ha <;> simp [alive] at ha
      · intro i hi
        split at hi
        · simp [resOf] at hi
        · simp [resOf] at hi
          subst hi
          exact hc.res res (by rw [hpc]; rfl)
      · split <;> trivial
  · rename_i hpc
    injection hs with hs; subst hs
    apply inv_setPc h
    · intro x hx; rw [hpc] at hx
      split
      · show x ∈ (s.args t).drop 0
        rw [List.drop_zero]; exact hx
      · exact hx
    · intro x hx
      apply hc.all
      rw [hpc]
      split at hx
      · exact hx.elim
      · exact hx
    · intro _; rw [hpc]; rfl
    · intro i hi; split at hi <;> simp [resOf] at hi
    · split <;> trivial
  · rename_i hpc
    split at hs
    · injection hs with hs; subst hs
      apply inv_setPc h
      · intro x hx; rw [hpc] at hx
        show x ∈ (s.args t).drop 0
        rw [List.drop_zero]; exact hx
      · intro x hx; exact hx.elim
      · intro _; rw [hpc]; rfl
      · intro i hi; simp [resOf] at hi
      · trivial
    · cases hs
  · rename_i i res hpc
    split at hs
    · rename_i hn
      injection hs with hs; subst hs
      apply inv_setPc h
      · intro x hx; rw [hpc] at hx
        have hx : x ∈ (s.args t).drop i := hx
        rw [drop_all hn] at hx
        simp at hx
      · intro x hx; exact hx.elim
      · intro ha; simp [alive] at ha
      · intro j hj; exact hc.res j (by rw [hpc]; exact hj)
      · trivial
    · rename_i r hr
      injection hs with hs; subst hs
      have hlt : i < (s.args t).length := (List.getElem?_eq_some_iff.1 hr).1
      apply inv_deleteW h
      · intro x hne hx
        rw [hpc] at hx
        have hx : x ∈ (s.args t).drop i := hx
        rw [mem_drop_cons hr] at hx
        have hx : x ∈ (s.args t).drop (i + 1) := hx.resolve_left hne
        split <;> exact hx
      · intro x hx; split at hx <;> exact hx.elim
      · intro _; rw [hpc]; rfl
      · intro j hj
        exact hc.res j (by rw [hpc]; split at hj <;> exact hj)
      · split
        · exact hlt
        · trivial
  · rename_i i res hpc
    split at hs
    · cases hs
    · rename_i r hr
      split at hs
      · injection hs with hs; subst hs
        apply inv_setPc h
        · intro x hx; rw [hpc] at hx; exact List.mem_of_mem_drop hx
        · intro x hx; exact hx.elim
        · intro ha; simp [alive] at ha
        · intro j hj; simp [resOf] at hj
        · trivial
      · injection hs with hs; subst hs
        apply inv_setPc h
        · intro x hx; rw [hpc] at hx; exact hx
        · intro x hx; exact hx.elim
        · intro _; rw [hpc]; rfl
        · intro j hj
          have hj : (if (s.req r).done = true then some i else res) = some j := hj
          split at hj
          · rename_i hd
            injection hj with hj
            subst hj
            exact ⟨r, hr, hd⟩
          · exact hc.res j (by rw [hpc]; exact hj)
        · trivial
  · cases hs
  · cases hs

theorem inv_step {s s' : St} {op : Op} (h : Inv s) (hs : step s op = .ok s') : Inv s' := by
  cases op with
  | call t => exact inv_call h hs
  | spurious t =>
    simp only [step] at hs
    split at hs
    · rename_i hpc
      injection hs with hs; subst hs
      apply inv_setPc h
      · intro x hx; rw [hpc] at hx
        show x ∈ (s.args t).drop 0
        rw [List.drop_zero]; exact hx
      · intro x hx; exact hx.elim
      · intro _; rw [hpc]; rfl
      · intro i hi; simp [resOf] at hi
      · trivial
    · cases hs
  | fail r =>
    simp only [step] at hs
    split at hs
    · cases hs
    injection hs with hs; subst hs
    have e : ∀ x, (upd s.req r { s.req r with err := true } x).waiters = (s.req x).waiters ∧
        (upd s.req r { s.req r with err := true } x).done = (s.req x).done ∧
        (upd s.req r { s.req r with err := true } x).notified = (s.req x).notified := by
      intro x
      simp only [upd]
      split
      · rename_i h; subst h; simp
      · simp
    refine ⟨?_, ?_, ?_⟩
    · intro x hx
      simp only at hx ⊢
      rw [(e x).2.2] at hx
      rw [(e x).2.1]
      exact h.nd x hx
    · intro x t ht hx
      simp only at ht hx ⊢
      rw [(e x).2.2] at hx
      rw [(e x).1] at ht
      exact h.won x t ht hx
    · intro t
      refine (h.c t).frame rfl rfl (fun x => by simp only; rw [(e x).1]) (fun x hx => by simp only; rw [(e x).2.1]; exact hx) (fun _ => .inl)
  | setDone r =>
    simp only [step] at hs
    split at hs
    · cases hs
    injection hs with hs; subst hs
    have e : ∀ x, (upd s.req r { s.req r with done := true } x).waiters = (s.req x).waiters ∧
        ((s.req x).done = true → (upd s.req r { s.req r with done := true } x).done = true) ∧
        (upd s.req r { s.req r with done := true } x).notified = (s.req x).notified := by
      intro x
      simp only [upd]
      split
      · rename_i h; subst h; simp
      · simp
    refine ⟨?_, ?_, ?_⟩
    · intro x hx
      simp only at hx ⊢
      rw [(e x).2.2] at hx
      exact (e x).2.1 (h.nd x hx)
    · intro x t ht hx
      simp only at ht hx ⊢
      rw [(e x).2.2] at hx
      rw [(e x).1] at ht
      exact h.won x t ht hx
    · intro t
      refine (h.c t).frame rfl rfl (fun x => by simp only; rw [(e x).1]) (fun x hx => (e x).2.1 hx) (fun _ => .inl)
  | notify r =>
    simp only [step] at hs
    split at hs
    · rename_i hcond
      simp at hcond
      split at hs
      · injection hs with hs; subst hs
        have e : ∀ x, (upd s.req r { s.req r with notified := true } x).waiters = (s.req x).waiters ∧
            (upd s.req r { s.req r with notified := true } x).done = (s.req x).done := by
          intro x
          simp only [upd]
          split
          · rename_i h; subst h; simp
          · simp
        refine ⟨?_, ?_, ?_⟩
        · intro x hx
          simp only at hx ⊢
          rw [(e x).2]
          by_cases hxr : x = r
          · subst hxr; exact hcond.1
          · rw [upd_ne _ _ hxr] at hx; exact h.nd x hx
        · intro x t ht hx
          simp only at ht hx ⊢
          rw [(e x).1] at ht
          by_cases hxr : x = r
          · subst hxr; simp [ht]
          · rw [upd_ne _ _ hxr] at hx
            simp [h.won x t ht hx]
        · intro t
          refine (h.c t).frame rfl rfl (fun x => by simp only; rw [(e x).1]) (fun x hx => by simp only; rw [(e x).2]; exact hx) ?_
          intro ha ho
          simp only [Bool.or_eq_true] at ho
          rcases ho with ho | ho
          · exact .inl ho
          · right
            have hm : t ∈ (s.req r).waiters := by simpa using ho
            have hw := (h.c t).reg r hm
            refine ⟨r, ?_, by simp only; rw [(e r).2]; exact hcond.1⟩
            revert hw ha
            cases s.pc t <;> simp only [Where, alive] <;> intro ha hw
            all_goals first | exact hw | exact hw.elim | exact List.mem_of_mem_take hw | exact List.mem_of_mem_drop hw
      · cases hs
    · cases hs

theorem reach_inv {P : Op → Prop} {s : St} (h : Reach P s) : Inv s := by
  induction h with
  | start args => exact inv_init args
  | next op _ _ hs ih => exact inv_step ih hs

/-! ### The result, without spurious wake-ups -/

/-- Some request with number at least `i` is finished. -/
def Later (s : St) (t i : Nat) : Prop := ∃ j r, i ≤ j ∧ (s.args t)[j]? = some r ∧ (s.req r).done = true

/-- After the wait, the result is found or will be found. -/
def Found (s : St) (t : Nat) : Pc → Prop
  | .del i none => Later s t i
  | .pol i none => Later s t i
  | .ret none => False
  | _ => True

theorem Found.mono {s s' : St} {t : Nat} {p : Pc} (h : Found s t p) (ha : s'.args = s.args)
    (hd : ∀ r, (s.req r).done = true → (s'.req r).done = true) : Found s' t p := by
  have key : ∀ {i}, Later s t i → Later s' t i := by
    rintro i ⟨j, r, h1, h2, h3⟩
    exact ⟨j, r, h1, by rw [ha]; exact h2, hd r h3⟩
  cases p with
  | del i res => cases res <;> first | exact key h | trivial
  | pol i res => cases res <;> first | exact key h | trivial
  | ret res => cases res <;> first | exact h | trivial
  | _ => trivial

theorem found_call {s s' : St} {t : Nat} (h : Inv s) (hf : ∀ u, Found s u (s.pc u)) (hs : callStep s t = .ok s') :
    ∀ u, Found s' u (s'.pc u) := by
  intro u
  have hdone : s'.args = s.args ∧ (∀ r, (s'.req r).done = (s.req r).done) ∧ ∀ v, v ≠ t → s'.pc v = s.pc v := by
    simp only [callStep] at hs
    repeat' split at hs
    all_goals first
      | cases hs; done
      | (injection hs with hs; subst hs
         refine ⟨rfl, ?_, ?_⟩
         · intro r; first | rfl | exact deleteW_same.1 | exact insertW_same.1
         · intro v hv; simp [setPc, upd, hv, deleteW, insertW])
  by_cases hu : u = t
  case neg =>
    rw [hdone.2.2 u hu]
    exact (hf u).mono hdone.1 (fun r hr => by rw [hdone.2.1]; exact hr)
  subst hu
  have hc := h.c u
  have hfu := hf u
  have mono : ∀ {p}, Found s u p → Found s' u p := fun hp => hp.mono hdone.1 (fun r hr => by rw [hdone.2.1]; exact hr)
  have later : ∀ i, s.on u = true → alive (s.pc u) = true → i = 0 → Later s u i := by
    intro i ho ha hi
    obtain ⟨r, hr, hd⟩ := hc.son ha ho
    obtain ⟨j, hj, hje⟩ := List.getElem_of_mem hr
    exact ⟨j, r, by omega, by rw [List.getElem?_eq_getElem hj, hje], hd⟩
  have fin : ∀ p, s'.pc u = p → Found s u p → Found s' u (s'.pc u) := by
    intro p e hp
    rw [e]; exact mono hp
  simp only [callStep] at hs
  split at hs
  · injection hs with hs; subst hs
    exact fin _ (upd_eq _ _ _) trivial
  · split at hs
    · injection hs with hs; subst hs
      exact fin _ (upd_eq _ _ _) trivial
    · split at hs
      · injection hs with hs; subst hs
        exact fin _ (upd_eq _ _ _) trivial
      · split at hs
        · injection hs with hs; subst hs
          exact fin _ (upd_eq _ _ _) (by split <;> trivial)
        · injection hs with hs; subst hs
          exact fin _ (upd_eq _ _ _) trivial
  · split at hs
    · cases hs
    · injection hs with hs; subst hs
      exact fin _ (upd_eq _ _ _) (by split <;> trivial)
  · split at hs
    · cases hs
    · injection hs with hs; subst hs
      exact fin _ (upd_eq _ _ _) (by split <;> trivial)
  · rename_i hpc
    injection hs with hs; subst hs
    refine fin _ (upd_eq _ _ _) ?_
    split
    · rename_i ho
      exact later 0 ho (by rw [hpc]; rfl) rfl
    · trivial
  · rename_i hpc
    split at hs
    · rename_i ho
      injection hs with hs; subst hs
      exact fin _ (upd_eq _ _ _) (later 0 ho (by rw [hpc]; rfl) rfl)
    · cases hs
  · rename_i i res hpc
    rw [hpc] at hfu
    split at hs
    · rename_i hn
      injection hs with hs; subst hs
      refine fin _ (upd_eq _ _ _) ?_
      cases res with
      | some x => trivial
      | none =>
        obtain ⟨j, r, h1, h2, h3⟩ := hfu
        rw [List.getElem?_eq_none_iff] at hn
        have := (List.getElem?_eq_some_iff.1 h2).1
        omega
    · injection hs with hs; subst hs
      refine fin _ (upd_eq _ _ _) ?_
      cases res with
      | some x => trivial
      | none => exact hfu
  · rename_i i res hpc
    rw [hpc] at hfu
    split at hs
    · cases hs
    · rename_i r hr
      split at hs
      · injection hs with hs; subst hs
        exact fin _ (upd_eq _ _ _) trivial
      · injection hs with hs; subst hs
        refine fin _ (upd_eq _ _ _) ?_
        split
        · trivial
        · rename_i hd
          cases res with
          | some x => trivial
          | none =>
            obtain ⟨j, x, h1, h2, h3⟩ := hfu
            refine ⟨j, x, ?_, h2, h3⟩
            false_or_by_contra
            rename_i hlt
            have : j = i := by omega
            subst this
            rw [hr] at h2
            injection h2 with h2
            subst h2
            exact hd h3
  · cases hs
  · cases hs

theorem reach_found {P : Op → Prop} (hP : ∀ t, ¬ P (.spurious t)) {s : St} (h : Reach P s) : ∀ u, Found s u (s.pc u) := by
  induction h with
  | start args => intro u; trivial
  | @next s s' op hr hp hs ih =>
    cases op with
    | call t => exact found_call (reach_inv hr) ih hs
    | spurious t => exact absurd hp (hP t)
    | fail r =>
      intro u
      simp only [step] at hs
      split at hs
      · cases hs
      injection hs with hs; subst hs
      refine (ih u).mono rfl ?_
      intro x hx
      simp only [upd]; split
      · rename_i h; subst h; exact hx
      · exact hx
    | setDone r =>
      intro u
      simp only [step] at hs
      split at hs
      · cases hs
      injection hs with hs; subst hs
      refine (ih u).mono rfl ?_
      intro x hx
      simp only [upd]; split
      · rfl
      · exact hx
    | notify r =>
      intro u
      simp only [step] at hs
      split at hs
      · split at hs
        · injection hs with hs; subst hs
          refine (ih u).mono rfl ?_
          intro x hx
          simp only [upd]; split
          · rename_i h; subst h; exact hx
          · exact hx
        · cases hs
      · cases hs

/-! ### No exceptions without I/O errors -/

theorem reach_noerr {P : Op → Prop} (hP : ∀ r, ¬ P (.fail r)) {s : St} (h : Reach P s) :
    (∀ r, (s.req r).err = false) ∧ ∀ t, s.pc t ≠ .thrown := by
  induction h with
  | start args => simp [init]
  | @next s s' op hr hp hs ih =>
    obtain ⟨he, ht⟩ := ih
    cases op with
    | call t =>
      simp only [step, callStep] at hs
      have key : ∀ s1 p, s' = setPc s1 t p → s1.pc = s.pc → (∀ r, (s1.req r).err = (s.req r).err) → p ≠ .thrown →
          (∀ r, (s'.req r).err = false) ∧ ∀ t, s'.pc t ≠ .thrown := by
        intro s1 p e1 e2 e3 e4
        subst e1
        refine ⟨fun r => by show (s1.req r).err = false; rw [e3]; exact he r, ?_⟩
        intro u
        simp only [setPc, upd]
        split
        · exact e4
        · rw [e2]; exact ht u
      split at hs
      · injection hs with hs; subst hs
        refine ⟨he, ?_⟩
        intro u
        simp only [upd]
        split
        · simp
        · exact ht u
      · split at hs
        · injection hs with hs
          exact key _ _ hs.symm rfl (fun _ => rfl) (by simp)
        · simp only [he] at hs
          split at hs
          · simp at *
          split at hs
          · injection hs with hs
            exact key _ _ hs.symm rfl (fun _ => rfl) (by split <;> simp)
          · injection hs with hs
            exact key _ _ hs.symm rfl (fun _ => insertW_same.2.2) (by simp)
      · split at hs
        · cases hs
        · injection hs with hs
          exact key _ _ hs.symm rfl (fun _ => deleteW_same.2.2) (by split <;> simp)
      · split at hs
        · cases hs
        · simp only [he] at hs
          injection hs with hs
          exact key _ _ hs.symm rfl (fun _ => rfl) (by simp)
      · injection hs with hs
        exact key _ _ hs.symm rfl (fun _ => rfl) (by split <;> simp)
      · split at hs
        · injection hs with hs
          exact key _ _ hs.symm rfl (fun _ => rfl) (by simp)
        · cases hs
      · split at hs
        · injection hs with hs
          exact key _ _ hs.symm rfl (fun _ => rfl) (by simp)
        · injection hs with hs
          exact key _ _ hs.symm rfl (fun _ => deleteW_same.2.2) (by split <;> simp)
      · split at hs
        · cases hs
        · simp only [he] at hs
          split at hs
          · simp at *
          injection hs with hs
          exact key _ _ hs.symm rfl (fun _ => rfl) (by simp)
      · cases hs
      · cases hs
    | spurious t =>
      simp only [step] at hs
      split at hs
      · injection hs with hs; subst hs
        refine ⟨he, ?_⟩
        intro u
        simp only [setPc, upd]
        split
        · simp
        · exact ht u
      · cases hs
    | fail r => exact absurd hp (hP r)
    | setDone r =>
      simp only [step] at hs
      split at hs
      · cases hs
      injection hs with hs; subst hs
      refine ⟨?_, ht⟩
      intro x
      simp only [upd]; split
      · exact he r
      · exact he x
    | notify r =>
      simp only [step] at hs
      split at hs
      · split at hs
        · injection hs with hs; subst hs
          refine ⟨?_, ht⟩
          intro x
          simp only [upd]; split
          · exact he r
          · exact he x
        · cases hs
      · cases hs

/-! ### Progress -/

/-- Steps left for a call. -/
def rank (n : Nat) : Pc → Nat
  | .idle => 0
  | .add i => (n - i) + 2 * n + 6
  | .undo j _ => j + 2
  | .chk _ => 1
  | .test => 2 * n + 5
  | .asleep => 2 * n + 4
  | .del i _ => 2 * (n - i) + 2
  | .pol i _ => 2 * (n - i) + 1
  | .ret _ => 0
  | .thrown => 0

/-- Steps of call `t` only. -/
inductive Runs (t : Nat) : St → St → Prop
  | refl (s) : Runs t s s
  | step {s s' u} : step s (.call t) = .ok s' → Runs t s' u → Runs t s u

theorem call_progress {s : St} {t : Nat} (h : Inv s) (ha : alive (s.pc t) = true) (ho : s.pc t = .asleep → s.on t = true) :
    ∃ s', callStep s t = .ok s' ∧ rank (s.args t).length (s'.pc t) < rank (s.args t).length (s.pc t) ∧ s'.args = s.args ∧
      (∀ r, (s'.req r).notified = (s.req r).notified) ∧ s'.pc t ≠ .idle := by
  have hb := (h.c t).bnd
  have key : ∀ s1 p, callStep s t = .ok (setPc s1 t p) → s1.args = s.args → (∀ r, (s1.req r).notified = (s.req r).notified) →
      rank (s.args t).length p < rank (s.args t).length (s.pc t) → p ≠ .idle →
      ∃ s', callStep s t = .ok s' ∧ rank (s.args t).length (s'.pc t) < rank (s.args t).length (s.pc t) ∧ s'.args = s.args ∧
      (∀ r, (s'.req r).notified = (s.req r).notified) ∧ s'.pc t ≠ .idle := by
    intro s1 p h1 h2 h3 h4 h5
    refine ⟨_, h1, ?_, h2, h3, ?_⟩
    · simp only [setPc, upd_eq]; exact h4
    · simp only [setPc, upd_eq]; exact h5
  cases hpc : s.pc t with
  | idle => rw [hpc] at ha; simp [alive] at ha
  | ret res => rw [hpc] at ha; simp [alive] at ha
  | thrown => rw [hpc] at ha; simp [alive] at ha
  | add i =>
    cases hr : (s.args t)[i]? with
    | none =>
      rw [← hpc]
      exact key s .test (by simp [callStep, hpc, hr]) rfl (fun _ => rfl) (by rw [hpc]; simp [rank]; omega) (by simp)
    | some r =>
      have hlt := (List.getElem?_eq_some_iff.1 hr).1
      rw [← hpc]
      by_cases he : (s.req r).err
      · exact key s .thrown (by simp [callStep, hpc, hr, he]) rfl (fun _ => rfl) (by rw [hpc]; simp [rank]) (by simp)
      · by_cases hd : (s.req r).done
        · refine key s _ (by simp only [callStep, hpc, hr, he, hd]; rfl) rfl (fun _ => rfl) ?_ ?_
          · rw [hpc]; split <;> simp [rank] <;> omega
          · split <;> simp
        · exact key (insertW s r t) (.add (i + 1)) (by simp [callStep, hpc, hr, he, hd]) rfl (fun _ => insertW_same.2.1)
            (by rw [hpc]; simp only [rank]; omega) (by simp)
  | undo j res =>
    rw [hpc] at hb
    have hb : j < (s.args t).length ∧ res < (s.args t).length := hb
    rw [← hpc]
    refine key (deleteW s (s.args t)[j] t) _ (by simp only [callStep, hpc, List.getElem?_eq_getElem hb.1]; rfl) rfl (fun _ => deleteW_same.2.1) ?_ ?_
    · rw [hpc]; split <;> simp [rank] <;> omega
    · split <;> simp
  | chk res =>
    rw [hpc] at hb
    have hb : res < (s.args t).length := hb
    rw [← hpc]
    refine key s _ (by simp only [callStep, hpc, List.getElem?_eq_getElem hb]; rfl) rfl (fun _ => rfl) ?_ ?_
    · rw [hpc]; split <;> simp [rank]
    · split <;> simp
  | test =>
    rw [← hpc]
    refine key s _ (by simp only [callStep, hpc]; rfl) rfl (fun _ => rfl) ?_ ?_
    · rw [hpc]; split <;> simp [rank]
    · split <;> simp
  | asleep =>
    have := ho hpc
    rw [← hpc]
    refine key s (.del 0 none) (by simp only [callStep, hpc, this, if_true]) rfl (fun _ => rfl) ?_ (by simp)
    rw [hpc]; simp [rank]
  | del i res =>
    cases hr : (s.args t)[i]? with
    | none =>
      rw [← hpc]
      exact key s (.ret res) (by simp [callStep, hpc, hr]) rfl (fun _ => rfl) (by rw [hpc]; simp [rank]) (by simp)
    | some r =>
      have hlt := (List.getElem?_eq_some_iff.1 hr).1
      rw [← hpc]
      refine key (deleteW s r t) (if res = none then .pol i res else .del (i + 1) res) (by simp only [callStep, hpc, hr]) rfl (fun _ => deleteW_same.2.1) ?_ ?_
      · rw [hpc]; split <;> simp only [rank] <;> omega
      · split <;> simp
  | pol i res =>
    rw [hpc] at hb
    have hb : i < (s.args t).length := hb
    have hr := List.getElem?_eq_getElem hb
    rw [← hpc]
    by_cases he : (s.req (s.args t)[i]).err
    · exact key s .thrown (by simp [callStep, hpc, hr, he]) rfl (fun _ => rfl) (by rw [hpc]; simp [rank]) (by simp)
    · refine key s _ (by simp only [callStep, hpc, hr, he]; rfl) rfl (fun _ => rfl) ?_ (by simp)
      rw [hpc]; simp only [rank]; omega

theorem returns_aux {t r : Nat} : ∀ n (s : St), Inv s → alive (s.pc t) = true → r ∈ s.args t → (s.req r).notified = true →
    rank (s.args t).length (s.pc t) ≤ n → ∃ u, Runs t s u ∧ ((∃ res, u.pc t = .ret res) ∨ u.pc t = .thrown) := by
  intro n
  induction n with
  | zero =>
    intro s _ ha _ _ hr
    exfalso
    revert ha hr
    cases s.pc t <;> simp [alive, rank]
  | succ n ih =>
    intro s hi ha hr hn hrk
    obtain ⟨s', h1, h2, h3, h4, h5⟩ := call_progress hi ha (by
      intro hpc
      exact hi.won r t ((hi.c t).all r (by rw [hpc]; exact hr)) hn)
    have hi' := inv_call hi h1
    by_cases ha' : alive (s'.pc t) = true
    · obtain ⟨u, hu, hx⟩ := ih s' hi' ha' (by rw [h3]; exact hr) (by rw [h4]; exact hn) (by rw [h3]; omega)
      exact ⟨u, .step h1 hu, hx⟩
    · refine ⟨s', .step h1 (.refl s'), ?_⟩
      revert ha' h5
      cases s'.pc t <;> simp [alive]

end Foxxll.WaitAny
