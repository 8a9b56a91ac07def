/-
Simulation proofs for the addressable queues.
-/
import Verif.Spec.AddrQueue

set_option linter.unusedSimpArgs false

namespace Foxxll.AddrQ
open Spec

variable {P : Type}

/-! ### FIFO -/

/-- Simulation relation for the FIFO queue at time `now`. -/
structure FR (q : Fifo) (s : State Nat) (now : Nat) : Prop where
  nodes : (q.vals.map (·.1)).Nodup
  fresh : ∀ x ∈ q.vals, x.1 < q.nv
  m2v : ∀ k m v, q.index k = some (m, v) → (v, k) ∈ q.vals
  v2m : ∀ v k, (v, k) ∈ q.vals → ∃ m, q.index k = some (m, v)
  present : ∀ k, s.rank k = none ↔ q.index k = none
  handles : ∀ k m v, q.index k = some (m, v) → s.handle k = m
  next : s.next = q.nm
  order : q.vals.Pairwise (fun x y => ∀ a b, s.rank x.2 = some a → s.rank y.2 = some b → a < b)
  past : ∀ k a, s.rank k = some a → a < now

theorem eraseNode_some {l : List (Nat × Nat)} {v k : Nat} (h : (v, k) ∈ l) :
    eraseNode l v = some (l.filter (fun x => x.1 != v)) := by
  unfold eraseNode
  rw [if_pos]
  rw [List.any_eq_true]
  exact ⟨_, h, by simp⟩

theorem node_inj {q : Fifo} {s : State Nat} {now : Nat} (h : FR q s now) {v k k' : Nat}
    (h1 : (v, k) ∈ q.vals) (h2 : (v, k') ∈ q.vals) : k = k' := by
  have hn := h.nodes
  rw [List.nodup_iff_pairwise_ne, List.pairwise_map] at hn
  rcases List.mem_iff_getElem.1 h1 with ⟨i, hi, ei⟩
  rcases List.mem_iff_getElem.1 h2 with ⟨j, hj, ej⟩
  rw [List.pairwise_iff_getElem] at hn
  rcases Nat.lt_trichotomy i j with hij | hij | hij
  · exact absurd (by rw [ei, ej]) (hn i j hi hj hij)
  · subst hij; rw [ei] at ej; exact (Prod.mk.inj ej).2
  · exact absurd (by rw [ei, ej]) (hn j i hj hi hij)

/-- Removing key `e` everywhere preserves the relation. -/
theorem FR.remove {q : Fifo} {s : State Nat} {now : Nat} (h : FR q s now) {e m v : Nat}
    (hm : q.index e = some (m, v)) :
    FR { q with vals := q.vals.filter (fun x => x.1 != v), index := upd q.index e none } (Spec.remove s e) now := by
  have hin := h.m2v e m v hm
  constructor
  · exact h.nodes.sublist (List.Sublist.map _ List.filter_sublist)
  · intro x hx; exact h.fresh x (List.mem_filter.1 hx).1
  · intro k m' v' hk
    simp only [upd] at hk
    split at hk
    · exact absurd hk (by simp)
    · rename_i hne
      have := h.m2v k m' v' hk
      refine List.mem_filter.2 ⟨this, ?_⟩
      simp only [bne_iff_ne, ne_eq]
      intro hv; subst hv
      exact hne (node_inj h this hin)
  · intro v' k hk
    obtain ⟨h1, h2⟩ := List.mem_filter.1 hk
    simp only [bne_iff_ne, ne_eq] at h2
    obtain ⟨m', hm'⟩ := h.v2m v' k h1
    refine ⟨m', ?_⟩
    simp only [upd]
    rw [if_neg]
    · exact hm'
    · intro hke; subst hke
      rw [hm] at hm'
      simp only [Option.some.injEq, Prod.mk.injEq] at hm'
      exact h2 hm'.2.symm
  · intro k
    simp only [Spec.remove, upd]
    split
    · simp
    · exact h.present k
  · intro k m' v' hk
    simp only [upd] at hk
    split at hk
    · exact absurd hk (by simp)
    · exact h.handles k m' v' hk
  · exact h.next
  · refine (h.order.sublist List.filter_sublist).imp ?_
    intro x y hxy a b ha hb
    simp only [Spec.remove] at ha hb
    split at ha
    · exact absurd ha (by simp)
    · split at hb
      · exact absurd hb (by simp)
      · exact hxy a b ha hb
  · intro k a ha
    simp only [Spec.remove] at ha
    split at ha
    · exact absurd ha (by simp)
    · exact h.past k a ha

theorem fifo_empty {q : Fifo} {s : State Nat} {now : Nat} (h : FR q s now) : q.vals = [] ↔ IsEmpty s := by
  constructor
  · intro h0 k
    rw [h.present]
    cases hk : q.index k with
    | none => rfl
    | some x =>
      obtain ⟨m, v⟩ := x
      have := h.m2v k m v hk
      rw [h0] at this; simp at this
  · intro he
    cases hv : q.vals with
    | nil => rfl
    | cons x rest =>
      obtain ⟨v, k⟩ := x
      obtain ⟨m, hm⟩ := h.v2m v k (by rw [hv]; simp)
      have := (h.present k).1 (he k)
      rw [this] at hm; simp at hm

theorem fifo_min {q : Fifo} {s : State Nat} {now : Nat} (h : FR q s now) {v k : Nat} {rest : List (Nat × Nat)}
    (hv : q.vals = (v, k) :: rest) : IsMin (fun a b => decide (a < b)) s k := by
  obtain ⟨m, hm⟩ := h.v2m v k (by rw [hv]; simp)
  cases hr : s.rank k with
  | none => rw [h.present] at hr; rw [hr] at hm; simp at hm
  | some a =>
    refine ⟨a, hr, ?_⟩
    intro k' b hb
    cases hm' : q.index k' with
    | none => rw [← h.present] at hm'; rw [hm'] at hb; simp at hb
    | some x =>
      obtain ⟨m', v'⟩ := x
      have hin := h.m2v k' m' v' hm'
      rw [hv] at hin
      simp only [decide_eq_false_iff_not, Nat.not_lt]
      rcases List.mem_cons.1 hin with heq | hin
      · simp only [Prod.mk.injEq] at heq
        obtain ⟨_, rfl⟩ := heq
        rw [hr] at hb; simp only [Option.some.injEq] at hb; omega
      · have ho := h.order
        rw [hv, List.pairwise_cons] at ho
        have := ho.1 _ hin a b hr hb
        omega

theorem fifo_step (q : Fifo) (s : State Nat) (now : Nat) (h : FR q s now) (op : Op Nat)
    (hop : ∀ e o, op = .insert e o → o = now) :
    ∃ s', Step (fun a b => decide (a < b)) s op (q.call op).1 s' ∧
      ((q.call op).1 ≠ .ub → FR (q.call op).2 s' (now + 1)) := by
  have later : ∀ {q s}, FR q s now → FR q s (now + 1) := fun h =>
    { h with past := fun k a ha => by have := h.past k a ha; omega }
  cases op with
  | insert e o =>
    have ho : o = now := hop e o rfl
    subst ho
    cases hm : q.index e with
    | none =>
      have hr := (h.present e).2 hm
      have hcall : q.call (.insert e o) = (.ins (q.nm, e) true,
          { vals := q.vals ++ [(q.nv, e)], index := upd q.index e (some (q.nm, q.nv)),
            nv := q.nv + 1, nm := q.nm + 1 }) := by
        simp [Fifo.call, Fifo.insert, hm]
      rw [hcall]
      refine ⟨_, by rw [← h.next]; exact Step.insertNew s e o hr, fun _ => ?_⟩
      have hnotin : ∀ v, (v, e) ∉ q.vals := by
        intro v hv
        obtain ⟨m, hm'⟩ := h.v2m v e hv
        rw [hm] at hm'; simp at hm'
      constructor
      · simp only [List.map_append, List.map_cons, List.map_nil]
        rw [List.nodup_append]
        refine ⟨h.nodes, by simp, ?_⟩
        intro a ha b hb
        simp only [List.mem_singleton] at hb
        obtain ⟨x, hx, rfl⟩ := List.mem_map.1 ha
        have := h.fresh x hx; omega
      · intro x hx
        simp only
        rcases List.mem_append.1 hx with hx | hx
        · have := h.fresh x hx; omega
        · simp only [List.mem_singleton] at hx; subst hx; simp
      · intro k m v hk
        simp only [upd] at hk
        split at hk
        · rename_i hke; subst hke
          simp only [Option.some.injEq, Prod.mk.injEq] at hk
          simp [hk.2]
        · simp [h.m2v k m v hk]
      · intro v k hk
        simp only [upd]
        rcases List.mem_append.1 hk with hx | hx
        · have hne : k ≠ e := by rintro rfl; exact hnotin v hx
          rw [if_neg hne]; exact h.v2m v k hx
        · simp only [List.mem_singleton, Prod.mk.injEq] at hx
          obtain ⟨rfl, rfl⟩ := hx
          exact ⟨q.nm, by simp⟩
      · intro k
        simp only [upd]
        split
        · simp
        · exact h.present k
      · intro k m v hk
        simp only [upd] at hk ⊢
        split at hk
        · rename_i hke
          simp only [Option.some.injEq, Prod.mk.injEq] at hk
          rw [if_pos hke, h.next, hk.1]
        · rename_i hke
          rw [if_neg hke]; exact h.handles k m v hk
      · simp [h.next]
      · rw [List.pairwise_append]
        refine ⟨?_, by simp, ?_⟩
        · refine h.order.imp_of_mem ?_
          intro x y hx hy hxy a b ha hb
          have hxe : x.2 ≠ e := by rintro rfl; exact hnotin x.1 hx
          have hye : y.2 ≠ e := by rintro rfl; exact hnotin y.1 hy
          simp only [if_neg hxe] at ha
          simp only [if_neg hye] at hb
          exact hxy a b ha hb
        · intro x hx y hy a b ha hb
          simp only [List.mem_singleton] at hy
          subst hy
          have hxe : x.2 ≠ e := by rintro rfl; exact hnotin x.1 hx
          simp only [if_neg hxe] at ha
          simp only [if_pos, Option.some.injEq] at hb
          have := h.past _ _ ha
          omega
      · intro k a ha
        simp only at ha
        split at ha
        · simp only [Option.some.injEq] at ha; omega
        · have := h.past k a ha; omega
    | some x =>
      obtain ⟨m, old⟩ := x
      have hin := h.m2v e m old hm
      have hold := h.fresh _ hin
      simp only at hold
      cases hr : s.rank e with
      | none => rw [h.present, hm] at hr; simp at hr
      | some p =>
      have her : eraseNode (q.vals ++ [(q.nv, e)]) old
          = some (q.vals.filter (fun x => x.1 != old) ++ [(q.nv, e)]) := by
        rw [eraseNode_some (k := e) (by simp [hin]), List.filter_append]
        have : [(q.nv, e)].filter (fun x => x.1 != old) = [(q.nv, e)] := by
          rw [List.filter_cons, if_pos]
          · rfl
          · simp; omega
        rw [this]
      have hcall : q.call (.insert e o) = (.ins (m, e) false,
          { q with vals := q.vals.filter (fun x => x.1 != old) ++ [(q.nv, e)],
                   index := upd q.index e (some (m, q.nv)), nv := q.nv + 1 }) := by
        simp [Fifo.call, Fifo.insert, hm, her]
      rw [hcall]
      refine ⟨_, by rw [← h.handles e m old hm]; exact Step.insertOld s e o p hr, fun _ => ?_⟩
      have hr' := FR.remove h hm
      have hnotin : ∀ v, (v, e) ∉ q.vals.filter (fun x => x.1 != old) := by
        intro v hv
        obtain ⟨m', hm'⟩ := hr'.v2m v e hv
        simp [upd] at hm'
      have keep : ∀ k v, (v, k) ∈ q.vals → k ≠ e → (v, k) ∈ q.vals.filter (fun x => x.1 != old) := by
        intro k v hk hne
        refine List.mem_filter.2 ⟨hk, ?_⟩
        simp only [bne_iff_ne, ne_eq]
        intro hv; subst hv
        exact hne (node_inj h hk hin)
      constructor
      · simp only [List.map_append, List.map_cons, List.map_nil]
        rw [List.nodup_append]
        refine ⟨hr'.nodes, by simp, ?_⟩
        intro a ha b hb
        simp only [List.mem_singleton] at hb
        obtain ⟨x, hx, rfl⟩ := List.mem_map.1 ha
        have := h.fresh x (List.mem_filter.1 hx).1; omega
      · intro x hx
        simp only
        rcases List.mem_append.1 hx with hx | hx
        · have := h.fresh x (List.mem_filter.1 hx).1; omega
        · simp only [List.mem_singleton] at hx; subst hx; simp
      · intro k m v hk
        simp only [upd] at hk
        split at hk
        · rename_i hke; subst hke
          simp only [Option.some.injEq, Prod.mk.injEq] at hk
          simp [hk.2]
        · rename_i hke
          exact List.mem_append.2 (.inl (keep k v (h.m2v k m v hk) hke))
      · intro v k hk
        simp only [upd]
        rcases List.mem_append.1 hk with hx | hx
        · have hne : k ≠ e := by rintro rfl; exact hnotin v hx
          rw [if_neg hne]; exact h.v2m v k (List.mem_filter.1 hx).1
        · simp only [List.mem_singleton, Prod.mk.injEq] at hx
          obtain ⟨rfl, rfl⟩ := hx
          exact ⟨m, by simp⟩
      · intro k
        simp only [upd]
        split
        · simp
        · exact h.present k
      · intro k m' v hk
        simp only [upd] at hk ⊢
        split at hk
        · rename_i hke
          simp only [Option.some.injEq, Prod.mk.injEq] at hk
          rw [hke, ← hk.1]
          exact h.handles e m old hm
        · exact h.handles k m' v hk
      · exact h.next
      · rw [List.pairwise_append]
        refine ⟨?_, by simp, ?_⟩
        · refine hr'.order.imp_of_mem ?_
          intro x y hx hy hxy a b ha hb
          have hxe : x.2 ≠ e := by rintro rfl; exact hnotin x.1 hx
          have hye : y.2 ≠ e := by rintro rfl; exact hnotin y.1 hy
          simp only [if_neg hxe] at ha
          simp only [if_neg hye] at hb
          exact hxy a b (by simp [Spec.remove, hxe, ha]) (by simp [Spec.remove, hye, hb])
        · intro x hx y hy a b ha hb
          simp only [List.mem_singleton] at hy
          subst hy
          have hxe : x.2 ≠ e := by rintro rfl; exact hnotin x.1 hx
          simp only [if_neg hxe] at ha
          simp only [if_pos, Option.some.injEq] at hb
          have := h.past _ _ ha
          omega
      · intro k a ha
        simp only at ha
        split at ha
        · simp only [Option.some.injEq] at ha; omega
        · have := h.past k a ha; omega
  | erase e =>
    cases hm : q.index e with
    | none =>
      have hr := (h.present e).2 hm
      have hcall : q.call (.erase e) = (.bool false, q) := by simp [Fifo.call, Fifo.erase, hm]
      rw [hcall]
      exact ⟨s, Step.eraseNo s e hr, fun _ => later h⟩
    | some x =>
      obtain ⟨m, v⟩ := x
      have hin := h.m2v e m v hm
      cases hr : s.rank e with
      | none => rw [h.present, hm] at hr; simp at hr
      | some p =>
        have hcall : q.call (.erase e) = (.bool true,
            { q with vals := q.vals.filter (fun x => x.1 != v), index := upd q.index e none }) := by
          simp [Fifo.call, Fifo.erase, hm, eraseNode_some hin]
        rw [hcall]
        exact ⟨_, Step.eraseYes s e p hr, fun _ => later (FR.remove h hm)⟩
  | eraseH hd =>
    cases hm : q.index hd.2 with
    | none =>
      have hr := (h.present hd.2).2 hm
      have hcall : q.call (.eraseH hd) = (.ub, q) := by simp [Fifo.call, Fifo.eraseH, hm]
      rw [hcall]
      exact ⟨s, Step.eraseHBad s hd (.inl hr), fun hc => absurd rfl hc⟩
    | some x =>
      obtain ⟨m, v⟩ := x
      have hin := h.m2v _ m v hm
      have hh := h.handles _ m v hm
      by_cases hmh : m = hd.1
      · cases hr : s.rank hd.2 with
        | none => rw [h.present, hm] at hr; simp at hr
        | some p =>
          have hcall : q.call (.eraseH hd) = (.unit,
              { q with vals := q.vals.filter (fun x => x.1 != v), index := upd q.index hd.2 none }) := by
            simp [Fifo.call, Fifo.eraseH, hm, hmh, eraseNode_some hin]
          rw [hcall]
          exact ⟨_, Step.eraseH s hd p hr (by rw [hh, hmh]), fun _ => later (FR.remove h hm)⟩
      · have hcall : q.call (.eraseH hd) = (.ub, q) := by simp [Fifo.call, Fifo.eraseH, hm, hmh]
        rw [hcall]
        exact ⟨s, Step.eraseHBad s hd (.inr (by rw [hh]; exact hmh)), fun hc => absurd rfl hc⟩
  | empty =>
    have hcall : q.call .empty = (.bool q.vals.isEmpty, q) := rfl
    rw [hcall]
    by_cases he : IsEmpty s
    · rw [(fifo_empty h).2 he]
      exact ⟨s, Step.emptyYes s he, fun _ => later h⟩
    · have hne : q.vals ≠ [] := fun h0 => he ((fifo_empty h).1 h0)
      have : q.vals.isEmpty = false := by simpa using hne
      rw [this]
      exact ⟨s, Step.emptyNo s he, fun _ => later h⟩
  | top =>
    cases hv : q.vals with
    | nil =>
      have hcall : q.call .top = (.ub, q) := by simp [Fifo.call, Fifo.top, hv]
      rw [hcall]
      exact ⟨s, Step.topBad s ((fifo_empty h).1 hv), fun hc => absurd rfl hc⟩
    | cons x rest =>
      obtain ⟨v, k⟩ := x
      have hcall : q.call .top = (.key k, q) := by simp [Fifo.call, Fifo.top, hv]
      rw [hcall]
      exact ⟨s, Step.top s k (fifo_min h hv), fun _ => later h⟩
  | pop =>
    cases hv : q.vals with
    | nil =>
      have hcall : q.call .pop = (.ub, q) := by simp [Fifo.call, Fifo.pop, hv]
      rw [hcall]
      exact ⟨s, Step.popBad s ((fifo_empty h).1 hv), fun hc => absurd rfl hc⟩
    | cons x rest =>
      obtain ⟨v, k⟩ := x
      have hcall : q.call .pop = (.key k, { q with vals := rest, index := upd q.index k none }) := by
        simp [Fifo.call, Fifo.pop, hv]
      rw [hcall]
      refine ⟨_, Step.pop s k (fifo_min h hv), fun _ => ?_⟩
      obtain ⟨m, hm⟩ := h.v2m v k (by rw [hv]; simp)
      have hr := FR.remove h hm
      have hf : q.vals.filter (fun x => x.1 != v) = rest := by
        have hn := h.nodes
        rw [hv] at hn
        simp only [List.map_cons, List.nodup_cons] at hn
        rw [hv, List.filter_cons, if_neg (by simp), List.filter_eq_self]
        intro x hx
        simp only [bne_iff_ne, ne_eq]
        rintro rfl
        exact hn.1 (List.mem_map_of_mem hx)
      rw [hf] at hr
      exact later hr

theorem fifo_run (ops : List (Op Nat)) : ∀ (q : Fifo) (s : State Nat) (now : Nat), FR q s now →
    Run (fun a b => decide (a < b)) s (stamp now ops) (q.run ops) := by
  induction ops with
  | nil => intro q s now _; exact Run.nil s
  | cons op ops ih =>
    intro q s now h
    have hst : ∃ op', stamp now (op :: ops) = op' :: stamp (now + 1) ops ∧ q.call op' = q.call op ∧
        ∀ e o, op' = .insert e o → o = now := by
      cases op with
      | insert e o =>
        refine ⟨.insert e now, rfl, rfl, ?_⟩
        intro e' o' h; cases h; rfl
      | erase e => exact ⟨_, rfl, rfl, by intro e o h; cases h⟩
      | eraseH e => exact ⟨_, rfl, rfl, by intro e o h; cases h⟩
      | empty => exact ⟨_, rfl, rfl, by intro e o h; cases h⟩
      | top => exact ⟨_, rfl, rfl, by intro e o h; cases h⟩
      | pop => exact ⟨_, rfl, rfl, by intro e o h; cases h⟩
    obtain ⟨op', e1, e2, e3⟩ := hst
    obtain ⟨s', hs, hk⟩ := fifo_step q s now h op' e3
    rw [e1]
    rw [e2] at hs hk
    simp only [Fifo.run]
    split
    · rename_i hub
      rw [hub] at hs
      exact Run.ub hs
    · rename_i hub
      exact Run.cons hs hub (ih _ _ _ (hk hub))

/-! ### Priority queue -/

/-- Equivalent priorities. -/
def Equiv (lt : P → P → Bool) (a b : P) : Prop := lt a b = false ∧ lt b a = false

theorem Equiv.lt_left {lt : P → P → Bool} (hw : StrictWeak lt) {a a' b : P} (h : Equiv lt a a') :
    lt a b = lt a' b := by
  have h1 := hw.neg a a' b
  have h2 := hw.neg a' a b
  have := h.1; have := h.2
  cases x : lt a b <;> cases y : lt a' b <;> simp_all

theorem Equiv.lt_right {lt : P → P → Bool} (hw : StrictWeak lt) {a a' b : P} (h : Equiv lt a a') :
    lt b a = lt b a' := by
  have h1 := hw.neg b a' a
  have h2 := hw.neg b a a'
  have := h.1; have := h.2
  cases x : lt b a <;> cases y : lt b a' <;> simp_all

theorem cmp_irrefl {lt : P → P → Bool} (hw : StrictWeak lt) (x : P × Nat) : cmp lt x x = false := by
  simp [cmp, hw.irrefl]

theorem cmp_trans {lt : P → P → Bool} (hw : StrictWeak lt) {x y z : P × Nat}
    (h1 : cmp lt x y = true) (h2 : cmp lt y z = true) : cmp lt x z = true := by
  simp only [cmp, Bool.or_eq_true, Bool.and_eq_true, Bool.not_eq_true', decide_eq_true_eq] at *
  have t := hw.trans x.1 y.1 z.1
  have n1 := hw.neg x.1 z.1 y.1
  have n2 := hw.neg y.1 x.1 z.1
  have n3 := hw.neg z.1 y.1 x.1
  have n4 := hw.neg x.1 y.1 z.1
  cases a : lt x.1 y.1 <;> cases b : lt y.1 z.1 <;> cases c : lt x.1 z.1 <;> cases d : lt z.1 x.1 <;>
    cases e : lt y.1 x.1 <;> cases f : lt z.1 y.1 <;> simp_all <;> omega

/-- Neither smaller: equal key and equivalent priority. -/
theorem cmp_equiv {lt : P → P → Bool} {x y : P × Nat}
    (h1 : cmp lt x y = false) (h2 : cmp lt y x = false) : x.2 = y.2 ∧ Equiv lt x.1 y.1 := by
  simp only [cmp, Bool.or_eq_false_iff, Bool.and_eq_false_iff, Bool.not_eq_false', decide_eq_false_iff_not] at *
  obtain ⟨a, b⟩ := h1
  obtain ⟨c, d⟩ := h2
  rw [a] at d; rw [c] at b
  simp at b d
  exact ⟨by omega, a, c⟩

theorem cmp_key {lt : P → P → Bool} {x y : P × Nat} (h : x.2 = y.2) (he : Equiv lt x.1 y.1) :
    cmp lt x y = false ∧ cmp lt y x = false := by
  simp [cmp, he.1, he.2, h]

theorem mem_insertSorted (lt : P → P → Bool) (x y : Nat × P × Nat) (l : List (Nat × P × Nat)) :
    y ∈ insertSorted lt x l ↔ y = x ∨ y ∈ l := by
  induction l with
  | nil => simp [insertSorted]
  | cons z l ih =>
    simp only [insertSorted]
    split
    · simp only [List.mem_cons, ih]
      grind
    · simp

theorem nodup_insertSorted (lt : P → P → Bool) (x : Nat × P × Nat) (l : List (Nat × P × Nat))
    (h : (l.map (·.1)).Nodup) (hx : x.1 ∉ l.map (·.1)) : ((insertSorted lt x l).map (·.1)).Nodup := by
  induction l with
  | nil => simp [insertSorted]
  | cons z l ih =>
    simp only [List.map_cons, List.nodup_cons, List.mem_cons, not_or] at h hx
    simp only [insertSorted]
    split
    · simp only [List.map_cons, List.nodup_cons]
      refine ⟨?_, ih h.2 hx.2⟩
      intro hm
      obtain ⟨w, hw, hwz⟩ := List.mem_map.1 hm
      rcases (mem_insertSorted lt x w l).1 hw with rfl | hw
      · exact hx.1 hwz
      · exact h.1 (hwz ▸ List.mem_map_of_mem hw)
    · simp only [List.map_cons, List.nodup_cons, List.mem_cons, not_or]
      exact ⟨⟨hx.1, hx.2⟩, h.1, h.2⟩

theorem sorted_insertSorted {lt : P → P → Bool} (hw : StrictWeak lt) (x : Nat × P × Nat)
    (l : List (Nat × P × Nat)) (hs : l.Pairwise (fun a b => cmp lt a.2 b.2 = true))
    (hne : ∀ y ∈ l, ¬ (cmp lt y.2 x.2 = false ∧ cmp lt x.2 y.2 = false)) :
    (insertSorted lt x l).Pairwise (fun a b => cmp lt a.2 b.2 = true) := by
  induction l with
  | nil => simp [insertSorted]
  | cons z l ih =>
    rw [List.pairwise_cons] at hs
    simp only [insertSorted]
    split
    · rename_i hc
      rw [List.pairwise_cons]
      refine ⟨?_, ih hs.2 (fun y hy => hne y (by simp [hy]))⟩
      intro w hwm
      rcases (mem_insertSorted lt x w l).1 hwm with rfl | hwm
      · exact hc
      · exact hs.1 w hwm
    · rename_i hc
      have hzx : cmp lt x.2 z.2 = true := by
        have := hne z (by simp)
        cases h : cmp lt x.2 z.2 <;> simp_all
      rw [List.pairwise_cons]
      refine ⟨?_, List.pairwise_cons.2 hs⟩
      intro w hwm
      rcases List.mem_cons.1 hwm with rfl | hwm
      · exact hzx
      · exact cmp_trans hw hzx (hs.1 w hwm)

/-- Simulation relation for the priority queue. -/
structure PR (lt : P → P → Bool) (q : Pq P) (s : State P) : Prop where
  nodes : (q.vals.map (·.1)).Nodup
  fresh : ∀ x ∈ q.vals, x.1 < q.nv
  m2v : ∀ k m v, q.index k = some (m, v) → ∃ p, (v, p, k) ∈ q.vals
  v2m : ∀ v p k, (v, p, k) ∈ q.vals → ∃ m, q.index k = some (m, v)
  present : ∀ k, s.rank k = none ↔ q.index k = none
  prio : ∀ v p k o, (v, p, k) ∈ q.vals → s.rank k = some o → Equiv lt p o
  handles : ∀ k m v, q.index k = some (m, v) → s.handle k = m
  next : s.next = q.nm
  sorted : q.vals.Pairwise (fun a b => cmp lt a.2 b.2 = true)

theorem eraseNodeP_some {l : List (Nat × P × Nat)} {v : Nat} {x : P × Nat} (h : (v, x) ∈ l) :
    eraseNodeP l v = some (l.filter (fun x => x.1 != v)) := by
  unfold eraseNodeP
  rw [if_pos]
  rw [List.any_eq_true]
  exact ⟨_, h, by simp⟩

theorem nodeP_inj {l : List (Nat × P × Nat)} (hn : (l.map (·.1)).Nodup) {v : Nat} {x y : P × Nat}
    (h1 : (v, x) ∈ l) (h2 : (v, y) ∈ l) : x = y := by
  rw [List.nodup_iff_pairwise_ne, List.pairwise_map] at hn
  rcases List.mem_iff_getElem.1 h1 with ⟨i, hi, ei⟩
  rcases List.mem_iff_getElem.1 h2 with ⟨j, hj, ej⟩
  rw [List.pairwise_iff_getElem] at hn
  rcases Nat.lt_trichotomy i j with hij | hij | hij
  · exact absurd (by rw [ei, ej]) (hn i j hi hj hij)
  · subst hij; rw [ei] at ej; exact (Prod.mk.inj ej).2
  · exact absurd (by rw [ei, ej]) (hn j i hj hi hij)

theorem PR.remove {lt : P → P → Bool} {q : Pq P} {s : State P} (h : PR lt q s) {e m v : Nat}
    (hm : q.index e = some (m, v)) :
    PR lt { q with vals := q.vals.filter (fun x => x.1 != v), index := upd q.index e none } (Spec.remove s e) := by
  obtain ⟨p0, hin⟩ := h.m2v e m v hm
  constructor
  · exact h.nodes.sublist (List.Sublist.map _ List.filter_sublist)
  · intro x hx; exact h.fresh x (List.mem_filter.1 hx).1
  · intro k m' v' hk
    simp only [upd] at hk
    split at hk
    · exact absurd hk (by simp)
    · rename_i hne
      obtain ⟨p, this⟩ := h.m2v k m' v' hk
      refine ⟨p, List.mem_filter.2 ⟨this, ?_⟩⟩
      simp only [bne_iff_ne, ne_eq]
      intro hv; subst hv
      exact hne (congrArg (·.2) (nodeP_inj h.nodes this hin))
  · intro v' p k hk
    obtain ⟨h1, h2⟩ := List.mem_filter.1 hk
    simp only [bne_iff_ne, ne_eq] at h2
    obtain ⟨m', hm'⟩ := h.v2m v' p k h1
    refine ⟨m', ?_⟩
    simp only [upd]
    rw [if_neg]
    · exact hm'
    · intro hke; subst hke
      rw [hm] at hm'
      simp only [Option.some.injEq, Prod.mk.injEq] at hm'
      exact h2 hm'.2.symm
  · intro k
    simp only [Spec.remove, upd]
    split
    · simp
    · exact h.present k
  · intro v' p k o hk ho
    simp only [Spec.remove] at ho
    split at ho
    · exact absurd ho (by simp)
    · exact h.prio v' p k o (List.mem_filter.1 hk).1 ho
  · intro k m' v' hk
    simp only [upd] at hk
    split at hk
    · exact absurd hk (by simp)
    · exact h.handles k m' v' hk
  · exact h.next
  · exact h.sorted.sublist List.filter_sublist

theorem pq_empty {lt : P → P → Bool} {q : Pq P} {s : State P} (h : PR lt q s) : q.vals = [] ↔ IsEmpty s := by
  constructor
  · intro h0 k
    rw [h.present]
    cases hk : q.index k with
    | none => rfl
    | some x =>
      obtain ⟨m, v⟩ := x
      obtain ⟨p, this⟩ := h.m2v k m v hk
      rw [h0] at this; simp at this
  · intro he
    cases hv : q.vals with
    | nil => rfl
    | cons x rest =>
      obtain ⟨v, p, k⟩ := x
      obtain ⟨m, hm⟩ := h.v2m v p k (by rw [hv]; simp)
      have := (h.present k).1 (he k)
      rw [this] at hm; simp at hm

theorem pq_min {lt : P → P → Bool} (hw : StrictWeak lt) {q : Pq P} {s : State P} (h : PR lt q s)
    {v k : Nat} {p : P} {rest : List (Nat × P × Nat)}
    (hv : q.vals = (v, p, k) :: rest) : IsMin lt s k := by
  have hin0 : (v, p, k) ∈ q.vals := by rw [hv]; simp
  obtain ⟨m, hm⟩ := h.v2m v p k hin0
  cases hr : s.rank k with
  | none => rw [h.present] at hr; rw [hr] at hm; simp at hm
  | some a =>
    refine ⟨a, hr, ?_⟩
    have ea := h.prio v p k a hin0 hr
    intro k' b hb
    cases hm' : q.index k' with
    | none => rw [← h.present] at hm'; rw [hm'] at hb; simp at hb
    | some x =>
      obtain ⟨m', v'⟩ := x
      obtain ⟨p', hin⟩ := h.m2v k' m' v' hm'
      have eb := h.prio v' p' k' b hin hb
      rw [← Equiv.lt_left hw eb, ← Equiv.lt_right hw ea]
      rw [hv] at hin
      rcases List.mem_cons.1 hin with heq | hin
      · simp only [Prod.mk.injEq] at heq
        obtain ⟨_, rfl, _⟩ := heq
        exact hw.irrefl _
      · have ho := h.sorted
        rw [hv, List.pairwise_cons] at ho
        have := ho.1 _ hin
        simp only [cmp, Bool.or_eq_true, Bool.and_eq_true, Bool.not_eq_true'] at this
        rcases this with h1 | h1
        · cases hc : lt p' p with
          | false => rfl
          | true =>
            have := hw.trans _ _ _ h1 hc
            rw [hw.irrefl] at this; exact absurd this (by simp)
        · exact h1.1

theorem pq_step {lt : P → P → Bool} (hw : StrictWeak lt) (q : Pq P) (s : State P) (h : PR lt q s) (op : Op P) :
    ∃ s', Step lt s op (q.call lt op).1 s' ∧ ((q.call lt op).1 ≠ .ub → PR lt (q.call lt op).2 s') := by
  cases op with
  | insert e o =>
    cases hm : q.index e with
    | none =>
      have hr := (h.present e).2 hm
      have hnotin : ∀ v p, (v, p, e) ∉ q.vals := by
        intro v p hv
        obtain ⟨m, hm'⟩ := h.v2m v p e hv
        rw [hm] at hm'; simp at hm'
      have hne : ∀ y ∈ q.vals, ¬ (cmp lt y.2 (o, e) = false ∧ cmp lt (o, e) y.2 = false) := by
        rintro ⟨v, p, k⟩ hy ⟨h1, h2⟩
        have := (cmp_equiv h1 h2).1
        simp only at this
        subst this
        exact hnotin v p hy
      have hfind : q.vals.find? (fun y => !cmp lt y.2 (o, e) && !cmp lt (o, e) y.2) = none := by
        rw [List.find?_eq_none]
        intro y hy hc
        simp only [Bool.and_eq_true, Bool.not_eq_true'] at hc
        exact hne y hy hc
      have hcall : q.call lt (.insert e o) = (.ins (q.nm, e) true,
          { vals := insertSorted lt (q.nv, o, e) q.vals, index := upd q.index e (some (q.nm, q.nv)),
            nv := q.nv + 1, nm := q.nm + 1 }) := by
        simp [Pq.call, Pq.insert, setInsert, hm, hfind]
      rw [hcall]
      refine ⟨_, by rw [← h.next]; exact Step.insertNew s e o hr, fun _ => ?_⟩
      constructor
      · refine nodup_insertSorted lt _ _ h.nodes ?_
        intro hc
        obtain ⟨x, hx, hxe⟩ := List.mem_map.1 hc
        have := h.fresh x hx; simp only at hxe; omega
      · intro x hx
        simp only
        rcases (mem_insertSorted lt _ x _).1 hx with rfl | hx
        · simp
        · have := h.fresh x hx; omega
      · intro k m v hk
        simp only [upd] at hk
        split at hk
        · rename_i hke; subst hke
          simp only [Option.some.injEq, Prod.mk.injEq] at hk
          exact ⟨o, (mem_insertSorted lt _ _ _).2 (.inl (by simp [hk.2]))⟩
        · obtain ⟨p, hp⟩ := h.m2v k m v hk
          exact ⟨p, (mem_insertSorted lt _ _ _).2 (.inr hp)⟩
      · intro v p k hk
        simp only [upd]
        rcases (mem_insertSorted lt _ _ _).1 hk with hx | hx
        · simp only [Prod.mk.injEq] at hx
          obtain ⟨rfl, rfl, rfl⟩ := hx
          exact ⟨q.nm, by simp⟩
        · have hne : k ≠ e := by rintro rfl; exact hnotin v p hx
          rw [if_neg hne]; exact h.v2m v p k hx
      · intro k
        simp only [upd]
        split
        · simp
        · exact h.present k
      · intro v p k o' hk ho
        simp only at ho
        rcases (mem_insertSorted lt _ _ _).1 hk with hx | hx
        · simp only [Prod.mk.injEq] at hx
          obtain ⟨rfl, rfl, rfl⟩ := hx
          simp only [if_pos, Option.some.injEq] at ho
          subst ho
          exact ⟨hw.irrefl _, hw.irrefl _⟩
        · have hne : k ≠ e := by rintro rfl; exact hnotin v p hx
          rw [if_neg hne] at ho; exact h.prio v p k o' hx ho
      · intro k m v hk
        simp only [upd] at hk ⊢
        split at hk
        · rename_i hke
          simp only [Option.some.injEq, Prod.mk.injEq] at hk
          rw [if_pos hke, h.next, hk.1]
        · rename_i hke
          rw [if_neg hke]; exact h.handles k m v hk
      · simp [h.next]
      · exact sorted_insertSorted hw _ _ h.sorted hne
    | some x =>
      obtain ⟨m, old⟩ := x
      obtain ⟨p0, hin⟩ := h.m2v e m old hm
      have hold := h.fresh _ hin
      simp only at hold
      cases hr : s.rank e with
      | none => rw [h.present, hm] at hr; simp at hr
      | some r0 =>
      have huniq : ∀ v p, (v, p, e) ∈ q.vals → v = old ∧ p = p0 := by
        intro v p hv
        obtain ⟨m', hm'⟩ := h.v2m v p e hv
        rw [hm] at hm'
        simp only [Option.some.injEq, Prod.mk.injEq] at hm'
        obtain ⟨_, rfl⟩ := hm'
        exact ⟨rfl, congrArg (·.1) (nodeP_inj h.nodes hv hin)⟩
      cases hfind : q.vals.find? (fun y => !cmp lt y.2 (o, e) && !cmp lt (o, e) y.2) with
      | some y =>
        have hcall : q.call lt (.insert e o) = (.ins (m, e) false, { q with nv := q.nv + 1 }) := by
          simp [Pq.call, Pq.insert, setInsert, hm, hfind]
        rw [hcall]
        refine ⟨_, by rw [← h.handles e m old hm]; exact Step.insertOld s e o r0 hr, fun _ => ?_⟩
        have hy := List.mem_of_find?_eq_some hfind
        have hy2 := List.find?_some hfind
        simp only [Bool.and_eq_true, Bool.not_eq_true'] at hy2
        have heq := cmp_equiv hy2.1 hy2.2
        obtain ⟨v, p, k⟩ := y
        simp only at heq
        obtain ⟨rfl, heq⟩ := heq
        obtain ⟨rfl, rfl⟩ := huniq v p hy
        refine { h with fresh := ?_, present := ?_, prio := ?_, handles := ?_, next := h.next }
        · intro x hx; have := h.fresh x hx; simp only; omega
        · intro k'
          simp only
          split
          · rename_i hke; subst hke; simp [hm]
          · exact h.present k'
        · intro v' p' k' o' hk ho
          simp only at ho
          split at ho
          · rename_i hke; subst hke
            simp only [Option.some.injEq] at ho; subst ho
            obtain ⟨_, rfl⟩ := huniq v' p' hk
            exact heq
          · exact h.prio v' p' k' o' hk ho
        · intro k' m' v' hk; exact h.handles k' m' v' hk
      | none =>
        have hne : ∀ y ∈ q.vals, ¬ (cmp lt y.2 (o, e) = false ∧ cmp lt (o, e) y.2 = false) := by
          intro y hy hc
          have := (List.find?_eq_none.1 hfind) y hy
          simp only [Bool.and_eq_true, Bool.not_eq_true'] at this
          exact this hc
        have hin' : (old, p0, e) ∈ insertSorted lt (q.nv, o, e) q.vals :=
          (mem_insertSorted lt _ _ _).2 (.inr hin)
        have hcall : q.call lt (.insert e o) = (.ins (m, e) false,
            { q with vals := (insertSorted lt (q.nv, o, e) q.vals).filter (fun x => x.1 != old),
                     index := upd q.index e (some (m, q.nv)), nv := q.nv + 1 }) := by
          simp [Pq.call, Pq.insert, setInsert, hm, hfind, eraseNodeP_some hin']
        rw [hcall]
        refine ⟨_, by rw [← h.handles e m old hm]; exact Step.insertOld s e o r0 hr, fun _ => ?_⟩
        have hnd : ((insertSorted lt (q.nv, o, e) q.vals).map (·.1)).Nodup := by
          refine nodup_insertSorted lt _ _ h.nodes ?_
          intro hc
          obtain ⟨x, hx, hxe⟩ := List.mem_map.1 hc
          have := h.fresh x hx; simp only at hxe; omega
        have hmem : ∀ v p k, (v, p, k) ∈ (insertSorted lt (q.nv, o, e) q.vals).filter (fun x => x.1 != old) ↔
            (v = q.nv ∧ p = o ∧ k = e) ∨ ((v, p, k) ∈ q.vals ∧ k ≠ e) := by
          intro v p k
          rw [List.mem_filter, mem_insertSorted]
          simp only [Prod.mk.injEq, bne_iff_ne, ne_eq]
          constructor
          · rintro ⟨h1 | h1, h2⟩
            · exact .inl h1
            · refine .inr ⟨h1, ?_⟩
              rintro rfl
              exact h2 (huniq v p h1).1
          · rintro (⟨rfl, rfl, rfl⟩ | ⟨h1, h2⟩)
            · exact ⟨.inl ⟨rfl, rfl, rfl⟩, by omega⟩
            · refine ⟨.inr h1, ?_⟩
              rintro rfl
              exact h2 (congrArg (·.2) (nodeP_inj h.nodes h1 hin))
        constructor
        · exact hnd.sublist (List.Sublist.map _ List.filter_sublist)
        · rintro ⟨v, p, k⟩ hx
          simp only
          rcases (hmem v p k).1 hx with ⟨rfl, _, _⟩ | ⟨hx, _⟩
          · omega
          · have := h.fresh _ hx; simp only at this; omega
        · intro k m' v hk
          simp only [upd] at hk
          split at hk
          · rename_i hke; subst hke
            simp only [Option.some.injEq, Prod.mk.injEq] at hk
            exact ⟨o, (hmem _ _ _).2 (.inl ⟨hk.2.symm, rfl, rfl⟩)⟩
          · rename_i hke
            obtain ⟨p, hp⟩ := h.m2v k m' v hk
            exact ⟨p, (hmem _ _ _).2 (.inr ⟨hp, hke⟩)⟩
        · intro v p k hk
          simp only [upd]
          rcases (hmem v p k).1 hk with ⟨rfl, rfl, rfl⟩ | ⟨hx, hne⟩
          · exact ⟨m, by simp⟩
          · rw [if_neg hne]; exact h.v2m v p k hx
        · intro k
          simp only [upd]
          split
          · simp
          · exact h.present k
        · intro v p k o' hk ho
          simp only at ho
          rcases (hmem v p k).1 hk with ⟨rfl, rfl, rfl⟩ | ⟨hx, hne⟩
          · simp only [if_pos, Option.some.injEq] at ho
            subst ho
            exact ⟨hw.irrefl _, hw.irrefl _⟩
          · rw [if_neg hne] at ho; exact h.prio v p k o' hx ho
        · intro k m' v hk
          simp only [upd] at hk ⊢
          split at hk
          · rename_i hke
            simp only [Option.some.injEq, Prod.mk.injEq] at hk
            rw [hke, ← hk.1]
            exact h.handles e m old hm
          · exact h.handles k m' v hk
        · exact h.next
        · exact (sorted_insertSorted hw _ _ h.sorted hne).sublist List.filter_sublist
  | erase e =>
    cases hm : q.index e with
    | none =>
      have hr := (h.present e).2 hm
      have hcall : q.call lt (.erase e) = (.bool false, q) := by simp [Pq.call, Pq.erase, hm]
      rw [hcall]
      exact ⟨s, Step.eraseNo s e hr, fun _ => h⟩
    | some x =>
      obtain ⟨m, v⟩ := x
      obtain ⟨p0, hin⟩ := h.m2v e m v hm
      cases hr : s.rank e with
      | none => rw [h.present, hm] at hr; simp at hr
      | some p =>
        have hcall : q.call lt (.erase e) = (.bool true,
            { q with vals := q.vals.filter (fun x => x.1 != v), index := upd q.index e none }) := by
          simp [Pq.call, Pq.erase, hm, eraseNodeP_some hin]
        rw [hcall]
        exact ⟨_, Step.eraseYes s e p hr, fun _ => PR.remove h hm⟩
  | eraseH hd =>
    cases hm : q.index hd.2 with
    | none =>
      have hr := (h.present hd.2).2 hm
      have hcall : q.call lt (.eraseH hd) = (.ub, q) := by simp [Pq.call, Pq.eraseH, hm]
      rw [hcall]
      exact ⟨s, Step.eraseHBad s hd (.inl hr), fun hc => absurd rfl hc⟩
    | some x =>
      obtain ⟨m, v⟩ := x
      obtain ⟨p0, hin⟩ := h.m2v _ m v hm
      have hh := h.handles _ m v hm
      by_cases hmh : m = hd.1
      · cases hr : s.rank hd.2 with
        | none => rw [h.present, hm] at hr; simp at hr
        | some p =>
          have hcall : q.call lt (.eraseH hd) = (.unit,
              { q with vals := q.vals.filter (fun x => x.1 != v), index := upd q.index hd.2 none }) := by
            simp [Pq.call, Pq.eraseH, hm, hmh, eraseNodeP_some hin]
          rw [hcall]
          exact ⟨_, Step.eraseH s hd p hr (by rw [hh, hmh]), fun _ => PR.remove h hm⟩
      · have hcall : q.call lt (.eraseH hd) = (.ub, q) := by simp [Pq.call, Pq.eraseH, hm, hmh]
        rw [hcall]
        exact ⟨s, Step.eraseHBad s hd (.inr (by rw [hh]; exact hmh)), fun hc => absurd rfl hc⟩
  | empty =>
    have hcall : q.call lt .empty = (.bool q.vals.isEmpty, q) := rfl
    rw [hcall]
    by_cases he : IsEmpty s
    · rw [(pq_empty h).2 he]
      exact ⟨s, Step.emptyYes s he, fun _ => h⟩
    · have hne : q.vals ≠ [] := fun h0 => he ((pq_empty h).1 h0)
      have : q.vals.isEmpty = false := by simpa using hne
      rw [this]
      exact ⟨s, Step.emptyNo s he, fun _ => h⟩
  | top =>
    cases hv : q.vals with
    | nil =>
      have hcall : q.call lt .top = (.ub, q) := by simp [Pq.call, Pq.top, hv]
      rw [hcall]
      exact ⟨s, Step.topBad s ((pq_empty h).1 hv), fun hc => absurd rfl hc⟩
    | cons x rest =>
      obtain ⟨v, p, k⟩ := x
      have hcall : q.call lt .top = (.key k, q) := by simp [Pq.call, Pq.top, hv]
      rw [hcall]
      exact ⟨s, Step.top s k (pq_min hw h hv), fun _ => h⟩
  | pop =>
    cases hv : q.vals with
    | nil =>
      have hcall : q.call lt .pop = (.ub, q) := by simp [Pq.call, Pq.pop, hv]
      rw [hcall]
      exact ⟨s, Step.popBad s ((pq_empty h).1 hv), fun hc => absurd rfl hc⟩
    | cons x rest =>
      obtain ⟨v, p, k⟩ := x
      have hcall : q.call lt .pop = (.key k, { q with vals := rest, index := upd q.index k none }) := by
        simp [Pq.call, Pq.pop, hv]
      rw [hcall]
      refine ⟨_, Step.pop s k (pq_min hw h hv), fun _ => ?_⟩
      obtain ⟨m, hm⟩ := h.v2m v p k (by rw [hv]; simp)
      have hr := PR.remove h hm
      have hf : q.vals.filter (fun x => x.1 != v) = rest := by
        have hn := h.nodes
        rw [hv] at hn
        simp only [List.map_cons, List.nodup_cons] at hn
        rw [hv, List.filter_cons, if_neg (by simp), List.filter_eq_self]
        intro x hx
        simp only [bne_iff_ne, ne_eq]
        rintro rfl
        exact hn.1 (List.mem_map_of_mem hx)
      rw [hf] at hr
      exact hr

theorem pq_run {lt : P → P → Bool} (hw : StrictWeak lt) (ops : List (Op P)) :
    ∀ (q : Pq P) (s : State P), PR lt q s → Run lt s ops (q.run lt ops) := by
  induction ops with
  | nil => intro q s _; exact Run.nil s
  | cons op ops ih =>
    intro q s h
    obtain ⟨s', hs, hk⟩ := pq_step hw q s h op
    simp only [Pq.run]
    split
    · rename_i hub
      rw [hub] at hs
      exact Run.ub hs
    · rename_i hub
      exact Run.cons hs hub (ih _ _ (hk hub))

end Foxxll.AddrQ
