/-
Lemmas about pools as owners of memory.
-/
import Verif.Spec.PoolMem

namespace Foxxll.PoolMem

/-! ### counting -/

/-- Indicator. -/
def ind (a b : Nat) : Nat := if a == b then 1 else 0

theorem count_cons' (a b : Nat) (l : List Nat) : (a :: l).count b = l.count b + ind a b := by
  unfold ind; rw [List.count_cons]

theorem count_single (a b : Nat) : [a].count b = ind a b := by rw [count_cons']; simp

theorem cnt_eraseP {α : Type} (f : α → Bool) (g : α → Nat) (b : Nat) {x : α} : ∀ {l : List α}, l.find? f = some x →
    (l.map g).count b = ((l.eraseP f).map g).count b + ind (g x) b
  | [], h => nomatch h
  | y :: l, h => by
    by_cases hf : f y = true
    · rw [List.find?_cons_of_pos hf] at h
      injection h with h
      subst h
      rw [List.eraseP_cons_of_pos hf, List.map_cons, count_cons']
    · rw [List.find?_cons_of_neg hf] at h
      rw [List.eraseP_cons_of_neg hf, List.map_cons, List.map_cons, count_cons', count_cons', cnt_eraseP f g b h]
      omega

theorem cnt_last {l : List Nat} {x : Nat} (h : l.getLast? = some x) (b : Nat) : l.count b = l.dropLast.count b + ind x b := by
  have e : l = l.dropLast ++ [x] := by
    have hne : l ≠ [] := by intro e; subst e; simp at h
    rw [List.getLast?_eq_some_getLast hne] at h
    injection h with h
    rw [← h, List.dropLast_concat_getLast]
  have e2 := congrArg (List.count b) e
  rw [List.count_append, count_single] at e2
  exact e2

theorem cnt_eraseIdx {α : Type} (g : α → Nat) (b : Nat) {x : α} : ∀ {l : List α} {c : Nat}, l[c]? = some x →
    (l.map g).count b = ((l.eraseIdx c).map g).count b + ind (g x) b
  | [], c, h => by simp at h
  | y :: l, 0, h => by
    simp at h
    subst h
    rw [List.eraseIdx_cons_zero, List.map_cons, count_cons']
  | y :: l, c + 1, h => by
    simp at h
    rw [List.eraseIdx_cons_succ, List.map_cons, List.map_cons, count_cons', count_cons', cnt_eraseIdx g b h]
    omega

theorem cnt_erase (b : Nat) {x : Nat × Option Nat} : ∀ {l : List (Nat × Option Nat)}, x ∈ l →
    (l.map (·.1)).count b = ((l.erase x).map (·.1)).count b + ind x.1 b
  | [], h => nomatch h
  | y :: l, h => by
    by_cases e : y = x
    · subst e
      rw [List.erase_cons_head, List.map_cons, count_cons']
    · have h : x ∈ l := by
        rcases List.mem_cons.1 h with h | h
        · exact absurd h.symm e
        · exact h
      rw [List.erase_cons_tail (by simpa using e), List.map_cons, List.map_cons, count_cons', count_cons', cnt_erase b h]
      omega

theorem cnt_heap_erase {l : List Nat} {x : Nat} (h : 1 ≤ l.count x) (b : Nat) : l.count b = (l.erase x).count b + ind x b := by
  have hm : x ∈ l := List.count_pos_iff.1 (by omega)
  have := (List.perm_cons_erase hm).count_eq b
  rw [this, count_cons']

theorem mem_eraseP {α : Type} (f : α → Bool) {x y : α} : ∀ {l : List α}, l.find? f = some x → y ∈ l → y = x ∨ y ∈ l.eraseP f
  | [], h, _ => nomatch h
  | z :: l, h, hy => by
    by_cases hf : f z = true
    · rw [List.find?_cons_of_pos hf] at h
      injection h with h
      subst h
      rw [List.eraseP_cons_of_pos hf]
      exact List.mem_cons.1 hy
    · rw [List.find?_cons_of_neg hf] at h
      rw [List.eraseP_cons_of_neg hf]
      rcases List.mem_cons.1 hy with hy | hy
      · exact .inr (by rw [hy]; exact List.mem_cons_self ..)
      · rcases mem_eraseP f h hy with e | e
        · exact .inl e
        · exact .inr (List.mem_cons_of_mem _ e)

theorem mem_eraseIdx' {α : Type} {x y : α} : ∀ {l : List α} {c : Nat}, l[c]? = some x → y ∈ l → y = x ∨ y ∈ l.eraseIdx c
  | [], c, h, _ => by simp at h
  | z :: l, 0, h, hy => by
    simp at h
    subst h
    rw [List.eraseIdx_cons_zero]
    exact List.mem_cons.1 hy
  | z :: l, c + 1, h, hy => by
    simp at h
    rw [List.eraseIdx_cons_succ]
    rcases List.mem_cons.1 hy with hy | hy
    · exact .inr (by rw [hy]; exact List.mem_cons_self ..)
    · rcases mem_eraseIdx' h hy with e | e
      · exact .inl e
      · exact .inr (List.mem_cons_of_mem _ e)

/-! ### what a call of a pool does to the owners -/

/-- Blocks are allocated once. -/
structure EnvOk (e : Env) : Prop where
  nd : e.heap.Nodup
  lt : ∀ b ∈ e.heap, b < e.nblk

/-- Blocks of the pool and of the client. -/
def own (p : Pool) (e : Env) (b : Nat) : Nat := p.blocks.count b + (e.client.map (·.1)).count b

/-- The blocks `lost` have no owner any more; else owners and allocated blocks change together. -/
def Bal (p : Pool) (e : Env) (p' : Pool) (e' : Env) (lost : List Nat) : Prop :=
  ∀ b, own p' e' b + lost.count b + e.heap.count b = own p e b + e'.heap.count b

/-- Busy entries. -/
def Pool.ent (p : Pool) (b r : Nat) : Prop := (∃ x ∈ p.wbusy, x.blk = b ∧ x.req = r) ∨ ∃ x ∈ p.pbusy, x.blk = b ∧ x.req = r

/-- Who knows of request `r` for block `b`. -/
def cov (p : Pool) (e : Env) (b r : Nat) : Prop := p.ent b r ∨ (b, some r) ∈ e.client

/-- What a call that returns does besides. -/
structure Calm (p : Pool) (e : Env) (p' : Pool) (e' : Env) : Prop where
  pfs : p.pfs = p.pfree.length → p'.pfs = p'.pfree.length
  cov : ∀ r b, (r, b) ∈ e'.pend → cov p' e' b r ∨ ((r, b) ∈ e.pend ∧ ¬ cov p e b r)

/-- All of it for an outcome. -/
def Fine (p : Pool) (e : Env) : Out (Pool × Env) → Prop
  | .ok (p', e') => Bal p e p' e' [] ∧ (EnvOk e → EnvOk e') ∧ Calm p e p' e'
  | .threw p' e' => (∃ lost, lost.length ≤ 2 ∧ Bal p e p' e' lost) ∧ (EnvOk e → EnvOk e')
  | .ub => p.pfs ≠ p.pfree.length
  | _ => True

theorem blocks_count (p : Pool) (b : Nat) : p.blocks.count b =
    p.wfree.count b + (p.wbusy.map (·.blk)).count b + p.pfree.count b + (p.pbusy.map (·.blk)).count b := by
  unfold Pool.blocks
  rw [List.count_append, List.count_append, List.count_append]

theorem calm_refl (p : Pool) (e : Env) : Calm p e p e :=
  ⟨id, fun r b h => by
    by_cases hc : PoolMem.cov p e b r
    · exact .inl hc
    · exact .inr ⟨h, hc⟩⟩

theorem Calm.trans {p1 p2 p3 : Pool} {e1 e2 e3 : Env} (h : Calm p1 e1 p2 e2) (h' : Calm p2 e2 p3 e3) : Calm p1 e1 p3 e3 :=
  ⟨fun x => h'.pfs (h.pfs x), fun r b hp => by
    rcases h'.cov r b hp with c | ⟨h1, h2⟩
    · exact .inl c
    · rcases h.cov r b h1 with c | c
      · exact absurd c h2
      · exact .inr c⟩

theorem Bal.trans {p1 p2 p3 : Pool} {e1 e2 e3 : Env} {lost : List Nat} (h : Bal p1 e1 p2 e2 []) (h' : Bal p2 e2 p3 e3 lost) : Bal p1 e1 p3 e3 lost := by
  intro b
  have := h b
  have := h' b
  simp only [List.count_nil] at *
  omega

/-- Covered requests stay covered. -/
theorem calm_of {p p' : Pool} {e e' : Env} (hpfs : p.pfs = p.pfree.length → p'.pfs = p'.pfree.length)
    (hp : ∀ r b, (r, b) ∈ e'.pend → (r, b) ∈ e.pend ∨ cov p' e' b r)
    (hc : ∀ r b, (r, b) ∈ e'.pend → cov p e b r → cov p' e' b r) : Calm p e p' e' :=
  ⟨hpfs, fun r b h => by
    by_cases c : PoolMem.cov p e b r
    · exact .inl (hc r b h c)
    · rcases hp r b h with h1 | h1
      · exact .inr ⟨h1, c⟩
      · exact .inl h1⟩

theorem pending_iff (e : Env) (r : Nat) : e.pending r = true ↔ ∃ b, (r, b) ∈ e.pend := by
  unfold Env.pending
  rw [List.any_eq_true]
  constructor
  · rintro ⟨⟨a, b⟩, h1, h2⟩
    simp at h2
    exact ⟨b, by rw [← h2]; exact h1⟩
  · rintro ⟨b, h⟩
    exact ⟨(r, b), h, by simp⟩

theorem grow_spec : ∀ (n : Nat) (m : Mem) (e : Env),
    (grow n m e).2.1.client = e.client ∧ (grow n m e).2.1.pend = e.pend ∧ (grow n m e).2.1.nreq = e.nreq ∧
    (EnvOk e → EnvOk (grow n m e).2.1) ∧
    ((grow n m e).2.2.isSome = true → (grow n m e).1.length = n) ∧
    ∃ lost, lost.length ≤ 1 ∧ ((grow n m e).2.2.isSome = true → lost = []) ∧
      ∀ b, (grow n m e).2.1.heap.count b = e.heap.count b + (grow n m e).1.count b + lost.count b
  | 0, m, e => ⟨rfl, rfl, rfl, id, fun _ => rfl, [], by simp, fun _ => rfl, fun b => by simp [grow]⟩
  | n + 1, m, e => by
    have hok : EnvOk e → EnvOk { e with heap := e.nblk :: e.heap, nblk := e.nblk + 1 } := fun h =>
      ⟨List.nodup_cons.2 ⟨(fun hm => absurd (h.lt _ hm) (by omega)), h.nd⟩, fun b hb => by
        rcases List.mem_cons.1 hb with rfl | hb
        · exact Nat.lt_succ_self _
        · exact Nat.lt_succ_of_lt (h.lt b hb)⟩
    cases h1 : alloc m with
    | none =>
      have e1 : grow (n + 1) m e = ([], e, none) := by unfold grow; rw [h1]
      rw [e1]
      exact ⟨rfl, rfl, rfl, id, (fun h => nomatch h), [], by simp, (fun h => nomatch h), fun b => by simp⟩
    | some m1 =>
      cases h2 : alloc m1 with
      | none =>
        have e1 : grow (n + 1) m e = ([], { e with heap := e.nblk :: e.heap, nblk := e.nblk + 1 }, none) := by
          unfold grow; rw [h1]; simp only [h2]
        rw [e1]
        refine ⟨rfl, rfl, rfl, hok, (fun h => nomatch h), [e.nblk], by simp, (fun h => nomatch h), fun b => ?_⟩
        simp only [count_cons', List.count_nil]
        omega
      | some m2 =>
        obtain ⟨i1, i2, i3, i4, i5, lost, i6, i7, i8⟩ := grow_spec n m2 { e with heap := e.nblk :: e.heap, nblk := e.nblk + 1 }
        have e1 : grow (n + 1) m e = (e.nblk :: (grow n m2 { e with heap := e.nblk :: e.heap, nblk := e.nblk + 1 }).1,
            (grow n m2 { e with heap := e.nblk :: e.heap, nblk := e.nblk + 1 }).2) := by
          conv => lhs; unfold grow
          rw [h1]; simp only [h2]
        rw [e1]
        refine ⟨i1, i2, i3, fun h => i4 (hok h), fun h => by simp [i5 h], lost, i6, i7, fun b => ?_⟩
        have := i8 b
        simp only [count_cons'] at *
        omega

theorem checkBusy_count (e : Env) (b : Nat) : ∀ (l : List WB) (m : Mem),
    (l.map (·.blk)).count b = ((checkBusy e l m).1.map (·.blk)).count b + (checkBusy e l m).2.1.count b
  | [], m => by simp [checkBusy]
  | x :: l, m => by
    unfold checkBusy
    split
    · have := checkBusy_count e b l m
      simp only [List.map_cons, count_cons']
      omega
    · split
      · simp
      · rename_i m1 _
        have := checkBusy_count e b l m1
        simp only [List.map_cons, count_cons']
        omega

theorem checkBusy_mem (e : Env) {x : WB} (hx : e.pending x.req = true) : ∀ (l : List WB) (m : Mem), x ∈ l → x ∈ (checkBusy e l m).1
  | [], m, h => nomatch h
  | y :: l, m, h => by
    unfold checkBusy
    split
    · rcases List.mem_cons.1 h with rfl | h
      · exact List.mem_cons_self ..
      · exact List.mem_cons_of_mem _ (checkBusy_mem e hx l m h)
    · rename_i hy
      split
      · exact h
      · rcases List.mem_cons.1 h with rfl | h
        · exact absurd hx hy
        · exact checkBusy_mem e hx l _ h

/-- `steal`: the block returned has left the pool. -/
theorem wsteal_spec (p : Pool) (e : Env) (c : Nat) (m : Mem) :
    match wsteal p e c m with
    | .ok (b, p', _) => (∀ x, p.blocks.count x = p'.blocks.count x + ind b x) ∧ p'.pfs = p.pfs ∧ p'.pfree = p.pfree ∧
        ∀ y r, e.pending r = true → p.ent y r → p'.ent y r
    | .threw p' e' => e' = e ∧ ∃ b, ∀ x, p.blocks.count x = p'.blocks.count x + ind b x
    | .ub => False
    | _ => True := by
  unfold wsteal
  split
  · rename_i b m0 hm0
    split at hm0
    · rename_i x hx
      injection hm0 with hm0
      injection hm0 with e1 e2
      injection e2 with e2 e3
      subst e1; subst e2
      refine ⟨fun y => ?_, rfl, rfl, fun y r _ h => h⟩
      have := cnt_last hx y
      rw [blocks_count, blocks_count]
      dsimp only
      omega
    · split at hm0
      · exact nomatch hm0
      · split at hm0
        · exact nomatch hm0
        · rename_i x hx
          split at hm0
          · exact nomatch hm0
          · rename_i hnp
            split at hm0
            · rename_i kept freed m1 hc
              injection hm0 with hm0
              injection hm0 with e1 e2
              injection e2 with e2 e3
              subst e1; subst e2
              have hcc := fun y => checkBusy_count e y (p.wbusy.eraseIdx c) m
              rw [hc] at hcc
              refine ⟨fun y => ?_, rfl, rfl, fun y r hr h => ?_⟩
              · have h1 := cnt_eraseIdx (·.blk) y hx
                have h2 := hcc y
                rw [blocks_count, blocks_count]
                dsimp only at *
                rw [List.count_append]
                omega
              · rcases h with ⟨z, hz, h1, h2⟩ | h
                · rcases mem_eraseIdx' hx hz with hzx | hz
                  · subst hzx
                    rw [h2] at hnp
                    exact absurd hr hnp
                  · have := checkBusy_mem e (by rw [h2]; exact hr) _ m hz
                    rw [hc] at this
                    exact .inl ⟨z, this, h1, h2⟩
                · exact .inr h
            · exact nomatch hm0
  · rename_i p' e' hm0
    split at hm0
    · exact nomatch hm0
    · split at hm0
      · exact nomatch hm0
      · split at hm0
        · exact nomatch hm0
        · rename_i x hx
          split at hm0
          · exact nomatch hm0
          · split at hm0
            · exact nomatch hm0
            · rename_i kept freed hc
              injection hm0 with e1 e2
              subst e1; subst e2
              have hcc := fun y => checkBusy_count e y (p.wbusy.eraseIdx c) m
              rw [hc] at hcc
              refine ⟨rfl, x.blk, fun y => ?_⟩
              have h1 := cnt_eraseIdx (·.blk) y hx
              have h2 := hcc y
              rw [blocks_count, blocks_count]
              dsimp only at *
              rw [List.count_append]
              omega
  · rename_i hm0
    split at hm0
    · exact nomatch hm0
    · split at hm0
      · exact nomatch hm0
      · split at hm0
        · exact nomatch hm0
        · split at hm0
          · exact nomatch hm0
          · split at hm0 <;> exact nomatch hm0
  · trivial

/-! ### the calls -/

/-- Enough memory of the owners: every owned block is allocated. -/
def Owned (p : Pool) (e : Env) : Prop := ∀ b, own p e b ≤ e.heap.count b

theorem envOk_erase {e : Env} (h : EnvOk e) (b : Nat) : EnvOk { e with heap := e.heap.erase b } :=
  ⟨h.nd.erase b, fun x hx => h.lt x (List.mem_of_mem_erase hx)⟩

theorem ent_pfree {p : Pool} {b r : Nat} {l l' : List Nat} {n : Nat} : ({ p with wfree := l, pfree := l', pfs := n } : Pool).ent b r ↔ p.ent b r := Iff.rfl

theorem wshrink_fine : ∀ (n : Nat) (cs : List Nat) (p : Pool) (e : Env) (m : Mem), Owned p e → Fine p e (wshrink n cs p e m)
  | 0, cs, p, e, m, _ => ⟨(fun b => by simp), id, calm_refl p e⟩
  | n + 1, cs, p, e, m, ho => by
    have hs := wsteal_spec p e (cs.headD 0) m
    unfold wshrink
    split
    · rename_i b p1 m1 h1
      rw [h1] at hs
      obtain ⟨a1, a2, a3, a4⟩ := hs
      have hb : 1 ≤ e.heap.count b := by
        have := ho b
        have h2 := a1 b
        have : ind b b = 1 := by simp [ind]
        unfold own at *
        omega
      have hh := fun y => cnt_heap_erase hb y
      have hB : Bal p e p1 { e with heap := e.heap.erase b } [] := by
        intro y
        have := a1 y
        have := hh y
        unfold own
        simp only [List.count_nil]
        omega
      have hC : Calm p e p1 { e with heap := e.heap.erase b } :=
        calm_of (fun h => by rw [a2, a3]; exact h) (fun r x h => .inl h) (fun r x h hc => by
          rcases hc with hc | hc
          · exact .inl (a4 x r ((pending_iff e r).2 ⟨x, h⟩) hc)
          · exact .inr hc)
      have ho1 : Owned p1 { e with heap := e.heap.erase b } := by
        intro y
        have := hB y
        have := ho y
        simp only [List.count_nil] at *
        omega
      have ih := wshrink_fine n cs.tail p1 { e with heap := e.heap.erase b } m1 ho1
      revert ih
      cases wshrink n cs.tail p1 { e with heap := e.heap.erase b } m1 with
      | ok r => exact fun ih => ⟨hB.trans ih.1, fun h => ih.2.1 (envOk_erase h b), hC.trans ih.2.2⟩
      | threw p2 e2 => exact fun ⟨⟨lost, i1, i2⟩, i3⟩ => ⟨⟨lost, i1, hB.trans i2⟩, fun h => i3 (envOk_erase h b)⟩
      | blocked => exact fun _ => trivial
      | ub => exact fun ih hp => ih (hC.pfs hp)
      | assertFail => exact fun _ => trivial
    · rename_i p1 e1 h1
      rw [h1] at hs
      obtain ⟨rfl, b, hb⟩ := hs
      refine ⟨⟨[b], by simp, fun y => ?_⟩, id⟩
      have := hb y
      unfold own
      rw [count_single]
      omega
    · trivial
    · rename_i h1
      rw [h1] at hs
      exact absurd hs id
    · trivial

theorem wresize_fine (p : Pool) (e : Env) (n : Nat) (cs : List Nat) (m : Mem) (ho : Owned p e) : Fine p e (wresize p e n cs m) := by
  unfold wresize
  dsimp only
  split
  · obtain ⟨i1, i2, i3, i4, i5, lost, i6, i7, i8⟩ := grow_spec (n - (p.wfree.length + p.wbusy.length)) m e
    split
    · rename_i l e1 m1 hg
      rw [hg] at i1 i2 i3 i4 i5 i7 i8
      dsimp only at i1 i2 i3 i4 i5 i7 i8
      have i7 := i7 rfl
      subst i7
      refine ⟨fun b => ?_, i4, calm_of id (fun r b h => .inl (by rw [← i2]; exact h)) (fun r b h hc => ?_)⟩
      · have := i8 b
        unfold own
        rw [blocks_count, blocks_count, i1]
        simp only [List.count_append, List.count_nil] at *
        omega
      · rcases hc with hc | hc
        · exact .inl hc
        · exact .inr (by rw [i1]; exact hc)
    · rename_i l e1 hg
      rw [hg] at i1 i2 i3 i4 i5 i7 i8
      dsimp only at i1 i2 i3 i4 i5 i7 i8
      refine ⟨⟨lost, by omega, fun b => ?_⟩, i4⟩
      have := i8 b
      unfold own
      rw [blocks_count, blocks_count, i1]
      simp only [List.count_append] at *
      omega
  · exact wshrink_fine _ cs p e m ho

theorem pshrink_fine : ∀ (n : Nat) (p : Pool) (e : Env), Owned p e → Fine p e (pshrink n p e)
  | 0, p, e, _ => ⟨(fun b => by simp), id, calm_refl p e⟩
  | n + 1, p, e, ho => by
    unfold pshrink
    split
    · exact ⟨(fun b => by simp), id, calm_refl p e⟩
    · rename_i hz
      split
      · rename_i hl
        intro h
        have : p.pfree = [] := by simpa using hl
        rw [this] at h
        exact hz h
      · rename_i b hl
        have hh0 := cnt_last hl
        have hb : 1 ≤ e.heap.count b := by
          have := ho b
          have := hh0 b
          have : ind b b = 1 := by simp [ind]
          unfold own at *
          rw [blocks_count] at *
          omega
        have hh := fun y => cnt_heap_erase hb y
        have hB : Bal p e { p with pfs := p.pfs - 1, pfree := p.pfree.dropLast } { e with heap := e.heap.erase b } [] := by
          intro y
          have := hh0 y
          have := hh y
          unfold own
          rw [blocks_count, blocks_count]
          simp only [List.count_nil]
          omega
        have hC : Calm p e { p with pfs := p.pfs - 1, pfree := p.pfree.dropLast } { e with heap := e.heap.erase b } :=
          calm_of (fun h => by dsimp only; rw [h, List.length_dropLast]) (fun r x h => .inl h) (fun r x h hc => hc)
        have ho1 : Owned { p with pfs := p.pfs - 1, pfree := p.pfree.dropLast } { e with heap := e.heap.erase b } := by
          intro y
          have := hB y
          have := ho y
          simp only [List.count_nil] at *
          omega
        have ih := pshrink_fine n { p with pfs := p.pfs - 1, pfree := p.pfree.dropLast } { e with heap := e.heap.erase b } ho1
        revert ih
        cases pshrink n { p with pfs := p.pfs - 1, pfree := p.pfree.dropLast } { e with heap := e.heap.erase b } with
        | ok r => exact fun ih => ⟨hB.trans ih.1, fun h => ih.2.1 (envOk_erase h b), hC.trans ih.2.2⟩
        | threw p2 e2 => exact fun ⟨⟨lost, i1, i2⟩, i3⟩ => ⟨⟨lost, i1, hB.trans i2⟩, fun h => i3 (envOk_erase h b)⟩
        | blocked => exact fun _ => trivial
        | ub => exact fun ih hp => ih (hC.pfs hp)
        | assertFail => exact fun _ => trivial

theorem presize_fine (p : Pool) (e : Env) (n : Nat) (m : Mem) (ho : Owned p e) : Fine p e (presize p e n m) := by
  unfold presize
  dsimp only
  split
  · obtain ⟨i1, i2, i3, i4, i5, lost, i6, i7, i8⟩ := grow_spec (n - (p.pfs + p.pbusy.length)) m e
    split
    · rename_i l e1 m1 hg
      rw [hg] at i1 i2 i3 i4 i5 i7 i8
      dsimp only at i1 i2 i3 i4 i5 i7 i8
      have i7 := i7 rfl
      subst i7
      refine ⟨fun b => ?_, i4, calm_of (fun h => ?_) (fun r b h => .inl (by rw [← i2]; exact h)) (fun r b h hc => ?_)⟩
      · have := i8 b
        unfold own
        rw [blocks_count, blocks_count, i1]
        simp only [List.count_append, List.count_nil] at *
        omega
      · dsimp only
        rw [List.length_append, i5 rfl, h]
      · rcases hc with hc | hc
        · exact .inl hc
        · exact .inr (by rw [i1]; exact hc)
    · rename_i l e1 hg
      rw [hg] at i1 i2 i3 i4 i5 i7 i8
      dsimp only at i1 i2 i3 i4 i5 i7 i8
      refine ⟨⟨lost, by omega, fun b => ?_⟩, i4⟩
      have := i8 b
      unfold own
      rw [blocks_count, blocks_count, i1]
      simp only [List.count_append] at *
      omega
  · exact pshrink_fine _ p e ho

theorem submit_ok {e : Env} (h : EnvOk e) (b : Nat) : EnvOk (e.submit b) := ⟨h.nd, h.lt⟩

/-- Goals about counts after the lists are known. -/
macro "cnt" : tactic => `(tactic| (
  unfold own; rw [blocks_count, blocks_count]
  simp only [Env.submit, Env.drop, Env.give, Env.cancel, dropW, dropP, List.count_append, List.map_append, List.map_cons, List.map_nil, count_single, List.count_nil] at *
  omega))

theorem hint_fine (p : Pool) (e : Env) (bid : Nat) (m : Mem) : Fine p e (hint p e bid m) := by
  unfold hint
  split
  · exact ⟨(fun b => by simp), id, calm_refl p e⟩
  · split
    · exact ⟨(fun b => by simp), id, calm_refl p e⟩
    · rename_i hz
      split
      · rename_i hl
        intro h
        have : p.pfree = [] := by simpa using hl
        rw [this] at h
        exact hz h
      · rename_i b hl
        have hh := cnt_last hl
        dsimp only
        split
        · rename_i x hx
          have hx : p.wbusy.find? (fun x => x.bid == some bid) = some x := hx
          have hc := fun y => cnt_eraseP _ (·.blk) y hx
          split
          · refine ⟨⟨[b, x.blk], by simp, fun y => ?_⟩, id⟩
            have := hc y
            have := hh y
            rw [count_cons', count_single]
            cnt
          · split
            · refine ⟨⟨[x.blk], by simp, fun y => ?_⟩, id⟩
              have := hc y
              have := hh y
              cnt
            · refine ⟨fun y => ?_, id, calm_of (fun h => ?_) (fun r y h => .inl h) (fun r y h hcv => ?_)⟩
              · have := hc y
                have := hh y
                cnt
              · simp only [dropW]
                rw [h, List.length_dropLast]
              · rcases hcv with (⟨z, hz1, hz2, hz3⟩ | ⟨z, hz1, hz2, hz3⟩) | hcv
                · rcases mem_eraseP _ hx hz1 with e1 | e1
                  · subst e1
                    exact .inl (.inr ⟨_, List.mem_append_right _ (List.mem_singleton.2 rfl), hz2, hz3⟩)
                  · exact .inl (.inl ⟨z, e1, hz2, hz3⟩)
                · exact .inl (.inr ⟨z, List.mem_append_left _ hz1, hz2, hz3⟩)
                · exact .inr hcv
        · split
          · refine ⟨⟨[b], by simp, fun y => ?_⟩, id⟩
            have := hh y
            cnt
          · split
            · refine ⟨⟨[b], by simp, fun y => ?_⟩, fun h => submit_ok h b⟩
              have := hh y
              cnt
            · refine ⟨fun y => ?_, fun h => submit_ok h b, calm_of (fun h => ?_) (fun r y h => ?_) (fun r y h hcv => ?_)⟩
              · have := hh y
                cnt
              · dsimp only
                rw [h, List.length_dropLast]
              · rcases List.mem_append.1 h with h | h
                · exact .inl h
                · have h := List.mem_singleton.1 h
                  injection h with h1 h2
                  exact .inr (.inl (.inr ⟨_, List.mem_append_right _ (List.mem_singleton.2 rfl), h2.symm, h1.symm⟩))
              · rcases hcv with (hcv | ⟨z, hz1, hz2, hz3⟩) | hcv
                · exact .inl (.inl hcv)
                · exact .inl (.inr ⟨z, List.mem_append_left _ hz1, hz2, hz3⟩)
                · exact .inr hcv

theorem cancel_sub {e : Env} {r : Nat} {d : Bool} {x : Nat × Nat} (h : x ∈ (e.cancel r d).pend) : x ∈ e.pend := by
  unfold Env.cancel at h
  dsimp only at h
  split at h
  · exact (List.mem_filter.1 h).1
  · exact h

/-- What remains of `invalidate`. -/
def forget : Out (Bool × Pool × Env × Mem) → Out (Pool × Env)
  | .ok (_, p1, e1, _) => .ok (p1, e1)
  | .threw p1 e1 => .threw p1 e1
  | .blocked => .blocked
  | .ub => .ub
  | .assertFail => .assertFail

theorem invalidate_fine (p : Pool) (e : Env) (bid : Nat) (did : Bool) (m : Mem) : Fine p e (forget (invalidate p e bid did m)) := by
  unfold invalidate
  split
  · exact ⟨(fun b => by simp), id, calm_refl p e⟩
  · rename_i x hx
    have hx : p.pbusy.find? (fun x => x.bid == bid) = some x := hx
    have hc := fun y => cnt_eraseP _ (·.blk) y hx
    dsimp only
    split
    · trivial
    · rename_i hnp
      split
      · exact ⟨⟨[], by simp, fun y => by simp [own, Env.cancel, Pool.blocks]⟩, fun h => ⟨h.nd, h.lt⟩⟩
      · refine ⟨fun y => ?_, fun h => ⟨h.nd, h.lt⟩, calm_of (fun h => ?_) (fun r y h => .inl (cancel_sub h)) (fun r y h hcv => ?_)⟩
        · have := hc y
          cnt
        · simp only [List.length_append, List.length_singleton]
          omega
        · rcases hcv with (hcv | ⟨z, hz1, hz2, hz3⟩) | hcv
          · exact .inl (.inl hcv)
          · rcases mem_eraseP _ hx hz1 with e1 | e1
            · subst e1
              exact absurd ((pending_iff _ _).2 ⟨y, by rw [← hz3] at h; exact h⟩) hnp
            · exact .inl (.inr ⟨z, e1, hz2, hz3⟩)
          · exact .inr hcv

theorem stale_blocks (p : Pool) (bid : Nat) : (stale p bid).blocks = p.blocks := by
  unfold stale Pool.blocks
  dsimp only
  rw [List.map_map]
  congr 3
  apply List.map_congr_left
  intro x _
  dsimp only [Function.comp]
  split <;> rfl

theorem stale_ent {p : Pool} {bid b r : Nat} (h : p.ent b r) : (stale p bid).ent b r := by
  rcases h with ⟨z, h1, h2, h3⟩ | h
  · refine .inl ⟨_, List.mem_map_of_mem h1, ?_, ?_⟩
    · split <;> exact h2
    · split <;> exact h3
  · exact .inr h

theorem Fine.after {p p1 : Pool} {e e1 : Env} {o : Out (Pool × Env)} (hB : Bal p e p1 e1 []) (hE : EnvOk e → EnvOk e1) (hC : Calm p e p1 e1)
    (h : Fine p1 e1 o) : Fine p e o := by
  cases o with
  | ok r => exact ⟨hB.trans h.1, fun x => h.2.1 (hE x), hC.trans h.2.2⟩
  | threw p2 e2 =>
    obtain ⟨⟨lost, i1, i2⟩, i3⟩ := h
    exact ⟨⟨lost, i1, hB.trans i2⟩, fun x => i3 (hE x)⟩
  | blocked => trivial
  | ub => exact fun hp => h (hC.pfs hp)
  | assertFail => trivial

theorem write_fine (p : Pool) (e : Env) (b bid : Nat) (dids : List Nat) (did : Bool) (m : Mem) (hb : (b, none) ∈ e.client) :
    Fine p e (write p e b bid dids did m) := by
  have hd := fun y => cnt_erase y hb
  unfold write
  split
  · trivial
  · dsimp only
    split
    · refine ⟨⟨[], by simp, fun y => ?_⟩, fun h => ⟨h.nd, h.lt⟩⟩
      unfold own cancelOld
      rw [stale_blocks]
      simp
    · split
      · refine ⟨⟨[], by simp, fun y => ?_⟩, fun h => ⟨h.nd, h.lt⟩⟩
        unfold own cancelOld Env.submit
        rw [stale_blocks]
        simp
      · rename_i m2 _
        have hsb := fun y => congrArg (List.count y) (stale_blocks p bid)
        have hB : Bal p e { stale p bid with wbusy := (stale p bid).wbusy ++ [⟨b, some bid, (cancelOld p e bid dids).nreq⟩] }
            (((cancelOld p e bid dids).submit b).drop b) [] := by
          intro y
          have := hd y
          have := hsb y
          rw [blocks_count, blocks_count] at this
          unfold cancelOld
          cnt
        have hC : Calm p e { stale p bid with wbusy := (stale p bid).wbusy ++ [⟨b, some bid, (cancelOld p e bid dids).nreq⟩] }
            (((cancelOld p e bid dids).submit b).drop b) := by
          refine calm_of id (fun r y h => ?_) (fun r y h hcv => ?_)
          · rcases List.mem_append.1 h with h | h
            · exact .inl (List.mem_filter.1 h).1
            · have h := List.mem_singleton.1 h
              injection h with h1 h2
              exact .inr (.inl (.inl ⟨_, List.mem_append_right _ (List.mem_singleton.2 rfl), h2.symm, h1.symm⟩))
          · rcases hcv with hcv | hcv
            · rcases stale_ent (bid := bid) hcv with ⟨z, h1, h2⟩ | h1
              · exact .inl (.inl ⟨z, List.mem_append_left _ h1, h2⟩)
              · exact .inl (.inr h1)
            · exact .inr ((List.mem_erase_of_ne (by simp)).2 hcv)
        have hE : EnvOk e → EnvOk (((cancelOld p e bid dids).submit b).drop b) := fun h => ⟨h.nd, h.lt⟩
        have hi := Fine.after hB hE hC (invalidate_fine _ _ bid did m2)
        revert hi
        split
        · rename_i p3 e3 m3 hs
          rw [hs]
          exact fun hi => Fine.after hi.1 hi.2.1 hi.2.2 (hint_fine p3 e3 bid m3)
        · rename_i hs; rw [hs]; exact id
        · rename_i hs; rw [hs]; exact id
        · rename_i hs; rw [hs]; exact id
        · rename_i hs; rw [hs]; exact id
        · rename_i hs; rw [hs]; exact id

theorem read_fine (p : Pool) (e : Env) (b bid : Nat) (m : Mem) (hb : (b, none) ∈ e.client) : Fine p e (read p e b bid m) := by
  have hd := fun y => cnt_erase y hb
  have hk : ∀ (y r : Nat) (z : Nat × Option Nat), (y, some r) ∈ e.client → (y, some r) ∈ e.client.erase (b, none) ++ [z] := fun y r z h =>
    List.mem_append_left _ ((List.mem_erase_of_ne (by simp)).2 h)
  unfold read
  split
  · rename_i x hx
    have hx : p.pbusy.find? (fun x => x.bid == bid) = some x := hx
    have hc := fun y => cnt_eraseP _ (·.blk) y hx
    split
    · exact ⟨⟨[], by simp, fun y => by simp [own, Pool.blocks]⟩, id⟩
    · refine ⟨fun y => ?_, fun h => ⟨h.nd, h.lt⟩, calm_of (fun h => ?_) (fun r y h => .inl h) (fun r y h hcv => ?_)⟩
      · have := hc y
        have := hd y
        cnt
      · simp only [List.length_append, List.length_singleton]
        omega
      · rcases hcv with (hcv | ⟨z, hz1, hz2, hz3⟩) | hcv
        · exact .inl (.inl hcv)
        · rcases mem_eraseP _ hx hz1 with e1 | e1
          · subst e1
            exact .inr (List.mem_append_right _ (List.mem_singleton.2 (by rw [hz2, hz3])))
          · exact .inl (.inr ⟨z, e1, hz2, hz3⟩)
        · exact .inr (hk _ _ _ hcv)
  · split
    · rename_i x hx
      have hx : p.wbusy.find? (fun x => x.bid == some bid) = some x := hx
      have hc := fun y => cnt_eraseP _ (·.blk) y hx
      dsimp only
      split
      · refine ⟨⟨[x.blk], by simp, fun y => ?_⟩, id⟩
        have := hc y
        cnt
      · refine ⟨fun y => ?_, fun h => ⟨h.nd, h.lt⟩, calm_of id (fun r y h => .inl h) (fun r y h hcv => ?_)⟩
        · have := hc y
          have := hd y
          cnt
        · rcases hcv with (⟨z, hz1, hz2, hz3⟩ | hcv) | hcv
          · rcases mem_eraseP _ hx hz1 with e1 | e1
            · subst e1
              exact .inr (List.mem_append_right _ (List.mem_singleton.2 (by rw [hz2, hz3])))
            · exact .inl (.inl ⟨z, e1, hz2, hz3⟩)
          · exact .inl (.inr hcv)
          · exact .inr (hk _ _ _ hcv)
    · split
      · exact ⟨⟨[], by simp, fun y => by simp⟩, id⟩
      · refine ⟨fun y => ?_, fun h => ⟨h.nd, h.lt⟩, calm_of id (fun r y h => ?_) (fun r y h hcv => ?_)⟩
        · have := hd y
          unfold own
          simp only [Env.submit, Env.drop, Env.give, List.count_append, List.map_append, List.map_cons, List.map_nil, count_single, List.count_nil] at *
          omega
        · rcases List.mem_append.1 h with h | h
          · exact .inl h
          · have h := List.mem_singleton.1 h
            injection h with h1 h2
            subst h1; subst h2
            exact .inr (.inr (List.mem_append_right _ (List.mem_singleton.2 rfl)))
        · rcases hcv with hcv | hcv
          · exact .inl hcv
          · exact .inr (hk _ _ _ hcv)

/-! ### all pools -/

/-- Blocks of all pools. -/
def tot (l : List (Option Pool)) (b : Nat) : Nat := (l.flatMap fun o => (o.map Pool.blocks).getD []).count b

/-- Blocks of one pool. -/
def one (o : Option Pool) (b : Nat) : Nat := ((o.map Pool.blocks).getD []).count b

theorem tot_cons (o : Option Pool) (l : List (Option Pool)) (b : Nat) : tot (o :: l) b = one o b + tot l b := by
  unfold tot one
  rw [List.flatMap_cons, List.count_append]

theorem tot_append (l l' : List (Option Pool)) (b : Nat) : tot (l ++ l') b = tot l b + tot l' b := by
  unfold tot
  rw [List.flatMap_append, List.count_append]

theorem tot_set (b : Nat) (o' : Option Pool) {o : Option Pool} : ∀ {l : List (Option Pool)} {i : Nat}, l[i]? = some o → tot (l.set i o') b + one o b = tot l b + one o' b
  | [], i, h => by simp at h
  | x :: l, 0, h => by
    simp at h
    subst h
    rw [List.set_cons_zero, tot_cons, tot_cons]
    omega
  | x :: l, i + 1, h => by
    simp at h
    rw [List.set_cons_succ, tot_cons, tot_cons]
    have := tot_set b o' h
    omega

theorem one_le_tot {l : List (Option Pool)} {o : Option Pool} (b : Nat) : o ∈ l → one o b ≤ tot l b := by
  intro h
  induction l with
  | nil => exact nomatch h
  | cons x l ih =>
    rw [tot_cons]
    rcases List.mem_cons.1 h with rfl | h
    · omega
    · have := ih h
      omega

/-- Blocks of the client. -/
def cl (e : Env) (b : Nat) : Nat := (e.client.map (·.1)).count b

theorem places_count (s : St) (b : Nat) : s.places.count b = tot s.pools b + cl s.env b := by
  unfold St.places tot cl
  rw [List.count_append]

/-- In all histories. -/
structure Inv (s : St) : Prop where
  env : EnvOk s.env
  own : ∀ b, s.places.count b ≤ s.env.heap.count b

/-- While no memory is exhausted. -/
structure QInv (s : St) : Prop where
  eq : ∀ b, s.places.count b = s.env.heap.count b
  pfs : ∀ p, some p ∈ s.pools → p.pfs = p.pfree.length
  cov : ∀ r b, (r, b) ∈ s.env.pend → (∃ p, some p ∈ s.pools ∧ p.ent b r) ∨ (b, some r) ∈ s.env.client

/-- Owners and allocated blocks change together, but for the blocks `lost`. -/
def GBal (s s' : St) (lost : List Nat) : Prop := ∀ b, s'.places.count b + lost.count b + s.env.heap.count b = s.places.count b + s'.env.heap.count b

/-- A step that throws, other than constructors, loses at most two blocks. -/
def Good (s : St) : Res → Prop
  | .ok s' => EnvOk s'.env ∧ GBal s s' [] ∧ (QInv s → QInv s')
  | .threw s' => EnvOk s'.env ∧ ∃ lost, lost.length ≤ 2 ∧ GBal s s' lost
  | .ub => ¬ QInv s
  | _ => True

theorem put_good (s : St) (i : Nat) (p : Pool) (hi : s.pools[i]? = some (some p)) (hinv : Inv s) (o : Out (Pool × Env)) (h : Fine p s.env o) : Good s (put s i o) := by
  have hm : some p ∈ s.pools := List.mem_of_getElem? hi
  have key : ∀ (p' : Pool) (e' : Env) (lost : List Nat), Bal p s.env p' e' lost → GBal s ⟨s.pools.set i (some p'), e'⟩ lost := by
    intro p' e' lost hB b
    have h1 := hB b
    have h2 := tot_set b (some p') hi
    rw [places_count, places_count]
    unfold own at h1
    unfold cl
    simp only [one, Option.map_some, Option.getD_some] at h2
    dsimp only
    omega
  cases o with
  | ok r =>
    obtain ⟨p', e'⟩ := r
    obtain ⟨hB, hE, hC⟩ := h
    have hG := key p' e' [] hB
    refine ⟨hE hinv.env, hG, fun hq => ⟨fun b => ?_, fun q hq' => ?_, fun r b hp => ?_⟩⟩
    · have := hG b
      have := hq.eq b
      simp only [List.count_nil] at *
      omega
    · rcases List.mem_or_eq_of_mem_set hq' with h1 | h1
      · exact hq.pfs q h1
      · injection h1 with h1
        subst h1
        exact hC.pfs (hq.pfs p hm)
    · have hlt : i < s.pools.length := by
        rcases Nat.lt_or_ge i s.pools.length with h | h
        · exact h
        · rw [List.getElem?_eq_none h] at hi; exact nomatch hi
      rcases hC.cov r b hp with hc | ⟨hc, hn⟩
      · rcases hc with hc | hc
        · exact .inl ⟨p', List.mem_set hlt _, hc⟩
        · exact .inr hc
      · rcases hq.cov r b hc with ⟨q, hq1, hq2⟩ | hc
        · obtain ⟨k, hk⟩ := List.mem_iff_getElem?.1 hq1
          refine .inl ⟨q, List.mem_iff_getElem?.2 ⟨k, ?_⟩, hq2⟩
          by_cases hki : i = k
          · subst hki
            rw [hi] at hk
            injection hk with hk
            injection hk with hk
            subst hk
            exact absurd (.inl hq2) hn
          · rw [List.getElem?_set_ne hki]
            exact hk
        · exact absurd (.inr hc) hn
  | threw p' e' =>
    obtain ⟨⟨lost, h1, h2⟩, h3⟩ := h
    exact ⟨h3 hinv.env, lost, h1, key p' e' lost h2⟩
  | blocked => trivial
  | ub => exact fun hq => h (hq.pfs p hm)
  | assertFail => trivial

theorem onPool_good (s : St) (i : Nat) (f : Pool → Env → Out (Pool × Env)) (hinv : Inv s) (h : ∀ p, Owned p s.env → Fine p s.env (f p s.env)) :
    Good s (onPool s i f) := by
  unfold onPool
  split
  · rename_i p hi
    refine put_good s i p hi hinv _ (h p fun b => ?_)
    have h1 := hinv.own b
    have h2 := one_le_tot b (List.mem_of_getElem? hi)
    rw [places_count] at h1
    unfold own
    unfold cl at h1
    simp only [one, Option.map_some, Option.getD_some] at h2
    omega
  · trivial

theorem swap_get {s s' : St} {i j : Nat} (h : swap s i j = .ok s') :
    s'.env = s.env ∧ s'.pools.length = s.pools.length ∧ s'.pools[i]? = s.pools[j]? ∧ s'.pools[j]? = s.pools[i]? ∧
    (∃ p q, s.pools[i]? = some (some p) ∧ s.pools[j]? = some (some q)) ∧ ∀ k, k ≠ i → k ≠ j → s'.pools[k]? = s.pools[k]? := by
  unfold swap at h
  split at h
  · rename_i p q hp hq
    injection h with h
    subst h
    have hil : i < s.pools.length := by
      rcases Nat.lt_or_ge i s.pools.length with h | h
      · exact h
      · rw [List.getElem?_eq_none h] at hp; exact nomatch hp
    have hjl : j < s.pools.length := by
      rcases Nat.lt_or_ge j s.pools.length with h | h
      · exact h
      · rw [List.getElem?_eq_none h] at hq; exact nomatch hq
    refine ⟨rfl, by simp, ?_, ?_, ⟨p, q, hp, hq⟩, fun k h1 h2 => ?_⟩
    · by_cases hij : i = j
      · subst hij
        dsimp only
        rw [List.getElem?_set_self (by simpa using hil), hp]
      · dsimp only
        rw [List.getElem?_set_ne (Ne.symm hij), List.getElem?_set_self hil, hq]
    · dsimp only
      rw [List.getElem?_set_self (by simpa using hjl), hp]
    · dsimp only
      rw [List.getElem?_set_ne (Ne.symm h2), List.getElem?_set_ne (Ne.symm h1)]
  · exact nomatch h

theorem swap_good (s : St) (i j : Nat) (hinv : Inv s) : Good s (swap s i j) := by
  cases hsw : swap s i j with
  | ok s' =>
    obtain ⟨he, _, h1, h2, ⟨p, q, hp, hq⟩, h3⟩ := swap_get hsw
    have hmem : ∀ k : Nat, ∃ k' : Nat, s'.pools[k']? = s.pools[k]? := by
      intro k
      by_cases hki : k = i
      · exact ⟨j, by rw [hki, h2]⟩
      · by_cases hkj : k = j
        · exact ⟨i, by rw [hkj, h1]⟩
        · exact ⟨k, h3 k hki hkj⟩
    have hmem' : ∀ k : Nat, ∃ k' : Nat, s.pools[k']? = s'.pools[k]? := by
      intro k
      by_cases hki : k = i
      · exact ⟨j, by rw [hki, h1]⟩
      · by_cases hkj : k = j
        · exact ⟨i, by rw [hkj, h2]⟩
        · exact ⟨k, (h3 k hki hkj).symm⟩
    have hG : GBal s s' [] := by
      intro b
      unfold swap at hsw
      rw [hp, hq] at hsw
      injection hsw with hsw
      subst hsw
      have hq2 : (s.pools.set i (some q))[j]? = some (some q) := by
        by_cases hij : i = j
        · subst hij
          have hil : i < s.pools.length := by
            rcases Nat.lt_or_ge i s.pools.length with h | h
            · exact h
            · rw [List.getElem?_eq_none h] at hp; exact nomatch hp
          rw [List.getElem?_set_self hil]
        · rw [List.getElem?_set_ne hij, hq]
      have := tot_set b (some q) hp
      have := tot_set b (some p) hq2
      rw [places_count, places_count]
      dsimp only
      simp only [List.count_nil]
      omega
    refine ⟨by rw [he]; exact hinv.env, hG, fun hQ => ⟨fun b => ?_, fun x hx => ?_, fun r b hb => ?_⟩⟩
    · have := hG b
      have := hQ.eq b
      simp only [List.count_nil] at *
      omega
    · obtain ⟨k, hk⟩ := List.mem_iff_getElem?.1 hx
      obtain ⟨k', hk'⟩ := hmem' k
      exact hQ.pfs x (List.mem_iff_getElem?.2 ⟨k', by rw [hk', hk]⟩)
    · rw [he] at hb ⊢
      rcases hQ.cov r b hb with ⟨x, hx, hx2⟩ | hc
      · obtain ⟨k, hk⟩ := List.mem_iff_getElem?.1 hx
        obtain ⟨k', hk'⟩ := hmem k
        exact .inl ⟨x, List.mem_iff_getElem?.2 ⟨k', by rw [hk', hk]⟩, hx2⟩
      · exact .inr hc
  | threw s' => unfold swap at hsw; split at hsw <;> exact nomatch hsw
  | blocked => trivial
  | ub => unfold swap at hsw; split at hsw <;> exact nomatch hsw
  | assertFail => trivial

theorem destroy_good (s : St) (i : Nat) (hinv : Inv s) : Good s (destroy s i) := by
  unfold destroy
  split
  · rename_i p hi
    split
    · trivial
    · rename_i hnp
      have hnp : (∀ x ∈ p.wbusy, ¬ s.env.pending x.req = true) ∧ ∀ x ∈ p.pbusy, ¬ s.env.pending x.req = true := by
        simp only [Bool.or_eq_true, List.any_eq_true, not_or, not_exists, not_and] at hnp
        exact hnp
      have hG : GBal s ⟨s.pools.set i none, { s.env with heap := s.env.heap.filter fun b => !p.blocks.contains b }⟩ [] := by
        intro b
        have h1 := tot_set b none hi
        have h2 := hinv.own b
        rw [places_count] at h2
        rw [places_count, places_count]
        simp only [one, Option.map_some, Option.getD_some, Option.map_none, Option.getD_none, List.count_nil] at *
        unfold cl at *
        dsimp only at *
        have hle : s.env.heap.count b ≤ 1 := List.nodup_iff_count.1 hinv.env.nd b
        by_cases hb : b ∈ p.blocks
        · have hc : 1 ≤ p.blocks.count b := List.count_pos_iff.2 hb
          have : (s.env.heap.filter fun b => !p.blocks.contains b).count b = 0 := by
            rw [List.count_eq_zero]
            intro hm
            have := (List.mem_filter.1 hm).2
            simp at this
            exact this hb
          omega
        · have hc : p.blocks.count b = 0 := List.count_eq_zero.2 hb
          have : (s.env.heap.filter fun b => !p.blocks.contains b).count b = s.env.heap.count b := by
            rw [List.count_filter]
            simpa using hb
          omega
      refine ⟨⟨hinv.env.nd.filter _, fun b hb => hinv.env.lt b (List.mem_filter.1 hb).1⟩, hG, fun hQ => ⟨fun b => ?_, fun x hx => ?_, fun r b hb => ?_⟩⟩
      · have := hG b
        have := hQ.eq b
        simp only [List.count_nil] at *
        omega
      · rcases List.mem_or_eq_of_mem_set hx with h1 | h1
        · exact hQ.pfs x h1
        · exact nomatch h1
      · rcases hQ.cov r b hb with ⟨x, hx, hx2⟩ | hc
        · obtain ⟨k, hk⟩ := List.mem_iff_getElem?.1 hx
          by_cases hki : i = k
          · subst hki
            rw [hi] at hk
            injection hk with hk
            injection hk with hk
            subst hk
            have hpd := (pending_iff s.env r).2 ⟨b, hb⟩
            rcases hx2 with ⟨z, hz1, _, hz3⟩ | ⟨z, hz1, _, hz3⟩
            · exact absurd (by rw [hz3]; exact hpd) (hnp.1 z hz1)
            · exact absurd (by rw [hz3]; exact hpd) (hnp.2 z hz1)
          · exact .inl ⟨x, List.mem_iff_getElem?.2 ⟨k, by dsimp only; rw [List.getElem?_set_ne hki]; exact hk⟩, hx2⟩
        · exact .inr hc
  · trivial

/-- Outcomes of constructors. -/
def GoodC (s : St) (n : Nat) : Res → Prop
  | .threw s' => EnvOk s'.env ∧ s'.places = s.places ∧ (∀ b, s.env.heap.count b ≤ s'.env.heap.count b) ∧ s'.env.heap.length ≤ s.env.heap.length + n
  | r => Good s r

theorem grow_len : ∀ (n : Nat) (m : Mem) (e : Env), (grow n m e).2.1.heap.length ≤ e.heap.length + n
  | 0, m, e => by simp [grow]
  | n + 1, m, e => by
    unfold grow
    split
    · dsimp only; omega
    · dsimp only
      split
      · simp
      · rename_i m2 _
        have := grow_len n m2 { e with heap := e.nblk :: e.heap, nblk := e.nblk + 1 }
        simp only [List.length_cons] at this
        dsimp only
        omega

theorem places_none (s : St) (e : Env) (h : e.client = s.env.client) : (⟨s.pools ++ [none], e⟩ : St).places = s.places := by
  unfold St.places
  dsimp only
  rw [List.flatMap_append, h]
  simp

theorem construct_good (s : St) (nw np : Nat) (m : Mem) (hinv : Inv s) : GoodC s (nw + np) (construct s nw np m) := by
  unfold construct
  split
  · exact ⟨hinv.env, places_none s s.env rfl, fun b => Nat.le_refl _, by dsimp only; omega⟩
  · rename_i m1 _
    obtain ⟨i1, i2, i3, i4, i5, lost, i6, i7, i8⟩ := grow_spec nw m1 s.env
    have il := grow_len nw m1 s.env
    split
    · rename_i l e1 hg
      rw [hg] at i1 i2 i4 i8 il
      dsimp only at i1 i2 i4 i8 il
      exact ⟨i4 hinv.env, places_none s e1 i1, fun b => by have := i8 b; dsimp only; omega, by dsimp only; omega⟩
    · rename_i lw e1 m2 hg
      rw [hg] at i1 i2 i4 i7 i8 il
      dsimp only at i1 i2 i4 i7 i8 il
      have i7 := i7 rfl
      subst i7
      split
      · exact ⟨i4 hinv.env, places_none s e1 i1, fun b => by have := i8 b; dsimp only; omega, by dsimp only; omega⟩
      · rename_i m3 _
        obtain ⟨j1, j2, j3, j4, j5, lost2, j6, j7, j8⟩ := grow_spec np m3 e1
        have jl := grow_len np m3 e1
        split
        · rename_i l e2 hg2
          rw [hg2] at j1 j2 j4 j8 jl
          dsimp only at j1 j2 j4 j8 jl
          exact ⟨j4 (i4 hinv.env), places_none s e2 (by rw [j1, i1]), fun b => by have := i8 b; have := j8 b; dsimp only; omega, by dsimp only; omega⟩
        · rename_i lp e2 m4 hg2
          rw [hg2] at j1 j2 j4 j5 j7 j8 jl
          dsimp only at j1 j2 j4 j5 j7 j8 jl
          have j7 := j7 rfl
          subst j7
          have hG : GBal s ⟨s.pools ++ [some ⟨lw, [], lp, [], np⟩], e2⟩ [] := by
            intro b
            have := i8 b
            have := j8 b
            rw [places_count, places_count, tot_append, tot_cons]
            unfold cl
            rw [j1, i1]
            simp only [one, Option.map_some, Option.getD_some, blocks_count, List.map_nil, List.count_nil, tot, List.flatMap_nil] at *
            omega
          refine ⟨j4 (i4 hinv.env), hG, fun hQ => ⟨fun b => ?_, fun x hx => ?_, fun r b hb => ?_⟩⟩
          · have := hG b
            have := hQ.eq b
            simp only [List.count_nil] at *
            omega
          · rcases List.mem_append.1 hx with h1 | h1
            · exact hQ.pfs x h1
            · have h1 := List.mem_singleton.1 h1
              injection h1 with h1
              subst h1
              exact (j5 rfl).symm
          · rw [show (⟨s.pools ++ [some ⟨lw, [], lp, [], np⟩], e2⟩ : St).env.pend = s.env.pend from by rw [← i2, ← j2]] at hb
            rcases hQ.cov r b hb with ⟨x, hx, hx2⟩ | hc
            · exact .inl ⟨x, List.mem_append_left _ hx, hx2⟩
            · exact .inr (by dsimp only; rw [j1, i1]; exact hc)

/-- Is the step a constructor? -/
def Op.isConstruct : Op → Bool
  | .construct _ _ _ => true
  | _ => false

theorem mem_heap {s : St} (h : ∀ b, s.places.count b ≤ s.env.heap.count b) {b : Nat} (hb : b ∈ s.places) : b ∈ s.env.heap := by
  have h1 : 0 < s.places.count b := List.count_pos_iff.2 hb
  exact List.count_pos_iff.1 (Nat.lt_of_lt_of_le h1 (h b))

theorem mem_places_client {s : St} {b : Nat} {o : Option Nat} (h : (b, o) ∈ s.env.client) : b ∈ s.places :=
  List.mem_append_right _ (List.mem_map_of_mem h (f := (·.1)))

theorem mem_places_pool {s : St} {p : Pool} {b r : Nat} (h : some p ∈ s.pools) (he : p.ent b r) : b ∈ s.places := by
  refine List.mem_append_left _ (List.mem_flatMap.2 ⟨some p, h, ?_⟩)
  show b ∈ p.blocks
  unfold Pool.blocks
  rcases he with ⟨z, h1, h2, _⟩ | ⟨z, h1, h2, _⟩
  · exact List.mem_append_left _ (List.mem_append_left _ (List.mem_append_right _ (List.mem_map.2 ⟨z, h1, h2⟩)))
  · exact List.mem_append_right _ (List.mem_map.2 ⟨z, h1, h2⟩)

theorem step_good (s : St) (op : Op) (hinv : Inv s) (hl : Legal s op) (hop : op.isConstruct = false) : Good s (step s op) := by
  cases op with
  | construct nw np m => exact nomatch hop
  | swap i j => exact swap_good s i j hinv
  | destroy i => exact destroy_good s i hinv
  | write i b bid dids did m => dsimp only [step]; exact onPool_good s i _ hinv fun p _ => write_fine p s.env b bid dids did m hl
  | read i b bid m => dsimp only [step]; exact onPool_good s i _ hinv fun p _ => read_fine p s.env b bid m hl
  | hint i bid m => dsimp only [step]; exact onPool_good s i _ hinv fun p _ => hint_fine p s.env bid m
  | invalidate i bid did m => dsimp only [step]; exact onPool_good s i _ hinv fun p _ => invalidate_fine p s.env bid did m
  | steal i c m =>
    dsimp only [step]
    refine onPool_good s i _ hinv fun p _ => ?_
    have hs := wsteal_spec p s.env c m
    split
    · rename_i b p1 m1 h1
      rw [h1] at hs
      obtain ⟨a1, a2, a3, a4⟩ := hs
      refine ⟨fun y => ?_, fun h => ⟨h.nd, h.lt⟩, calm_of (fun h => by rw [a2, a3]; exact h) (fun r x h => .inl h) (fun r x h hc => ?_)⟩
      · have := a1 y
        unfold own
        simp only [Env.give, List.count_append, List.map_append, List.map_cons, List.map_nil, count_single, List.count_nil]
        omega
      · rcases hc with hc | hc
        · exact .inl (a4 x r ((pending_iff _ r).2 ⟨x, h⟩) hc)
        · exact .inr (List.mem_append_left _ hc)
    · rename_i p1 e1 h1
      rw [h1] at hs
      obtain ⟨rfl, b, hb⟩ := hs
      refine ⟨⟨[b], by simp, fun y => ?_⟩, id⟩
      have := hb y
      unfold own
      rw [count_single]
      omega
    · trivial
    · rename_i h1
      rw [h1] at hs
      exact absurd hs id
    · trivial
  | add i b m =>
    dsimp only [step]
    refine onPool_good s i _ hinv fun p _ => ?_
    have hd := fun y => cnt_erase y hl
    split
    · exact ⟨⟨[], by simp, fun y => by simp⟩, id⟩
    · refine ⟨fun y => ?_, fun h => ⟨h.nd, h.lt⟩, calm_of id (fun r x h => .inl h) (fun r x h hc => ?_)⟩
      · have := hd y
        cnt
      · rcases hc with hc | hc
        · exact .inl hc
        · exact .inr ((List.mem_erase_of_ne (by simp)).2 hc)
  | addPrefetch i b m =>
    dsimp only [step]
    refine onPool_good s i _ hinv fun p _ => ?_
    have hd := fun y => cnt_erase y hl
    split
    · exact ⟨⟨[], by simp, fun y => by simp⟩, id⟩
    · refine ⟨fun y => ?_, fun h => ⟨h.nd, h.lt⟩, calm_of (fun h => by simp [h]) (fun r x h => .inl h) (fun r x h hc => ?_)⟩
      · have := hd y
        cnt
      · rcases hc with hc | hc
        · exact .inl hc
        · exact .inr ((List.mem_erase_of_ne (by simp)).2 hc)
  | stealPrefetch i =>
    dsimp only [step]
    refine onPool_good s i _ hinv fun p _ => ?_
    split
    · trivial
    · rename_i b hb
      have hh := cnt_last hb
      refine ⟨fun y => ?_, fun h => ⟨h.nd, h.lt⟩, calm_of (fun h => by dsimp only; rw [h, List.length_dropLast]) (fun r x h => .inl h) (fun r x h hc => ?_)⟩
      · have := hh y
        cnt
      · rcases hc with hc | hc
        · exact .inl hc
        · exact .inr (List.mem_append_left _ hc)
  | resizeWrite i n cs m => dsimp only [step]; exact onPool_good s i _ hinv fun p ho => wresize_fine p s.env n cs m ho
  | resizePrefetch i n m => dsimp only [step]; exact onPool_good s i _ hinv fun p ho => presize_fine p s.env n m ho
  | new =>
    have hG : GBal s ⟨s.pools, ({ s.env with heap := s.env.nblk :: s.env.heap, nblk := s.env.nblk + 1 } : Env).give s.env.nblk none⟩ [] := by
      intro b
      rw [places_count, places_count]
      simp only [cl, Env.give, List.count_append, List.map_append, List.map_cons, List.map_nil, count_cons', List.count_nil]
      omega
    refine ⟨⟨List.nodup_cons.2 ⟨(fun hm => absurd (hinv.env.lt _ hm) (by omega)), hinv.env.nd⟩, fun b hb => ?_⟩, hG, fun hQ => ⟨fun b => ?_, hQ.pfs, fun r b hb => ?_⟩⟩
    · rcases List.mem_cons.1 hb with rfl | hb
      · exact Nat.lt_succ_self _
      · exact Nat.lt_succ_of_lt (hinv.env.lt b hb)
    · have := hG b
      have := hQ.eq b
      simp only [List.count_nil] at *
      omega
    · rcases hQ.cov r b hb with hc | hc
      · exact .inl hc
      · exact .inr (List.mem_append_left _ hc)
  | delete b =>
    have hd := fun y => cnt_erase y hl
    have hh := fun y => cnt_heap_erase (List.count_pos_iff.2 (mem_heap hinv.own (mem_places_client hl))) y
    have hG : GBal s ⟨s.pools, { s.env.drop b with heap := s.env.heap.erase b }⟩ [] := by
      intro y
      have := hd y
      have := hh y
      rw [places_count, places_count]
      simp only [cl, Env.drop, List.count_nil] at *
      omega
    refine ⟨⟨hinv.env.nd.erase b, fun x hx => hinv.env.lt x (List.mem_of_mem_erase hx)⟩, hG, fun hQ => ⟨fun y => ?_, hQ.pfs, fun r y hb => ?_⟩⟩
    · have := hG y
      have := hQ.eq y
      simp only [List.count_nil] at *
      omega
    · rcases hQ.cov r y hb with hc | hc
      · exact .inl hc
      · exact .inr ((List.mem_erase_of_ne (by simp)).2 hc)
  | wait b =>
    dsimp only [step]
    split
    · rename_i b' r hf
      split
      · trivial
      · rename_i hnp
        have hbb : b' = b := by simpa using List.find?_some hf
        subst hbb
        have hm := List.mem_of_find?_eq_some hf
        have hd := fun y => cnt_erase y hm
        have hG : GBal s ⟨s.pools, ({ s.env with client := s.env.client.erase (b', some r) } : Env).give b' none⟩ [] := by
          intro y
          have := hd y
          rw [places_count, places_count]
          simp only [cl, Env.give, List.count_append, List.map_append, List.map_cons, List.map_nil, count_single, List.count_nil] at *
          omega
        refine ⟨⟨hinv.env.nd, hinv.env.lt⟩, hG, fun hQ => ⟨fun y => ?_, hQ.pfs, fun r' y hb => ?_⟩⟩
        · have := hG y
          have := hQ.eq y
          simp only [List.count_nil] at *
          omega
        · rcases hQ.cov r' y hb with hc | hc
          · exact .inl hc
          · refine .inr (List.mem_append_left _ ((List.mem_erase_of_ne ?_).2 hc))
            intro he
            injection he with h1 h2
            injection h2 with h2
            subst h2
            exact hnp ((pending_iff _ _).2 ⟨y, hb⟩)
    · trivial
  | complete r =>
    dsimp only [step]
    split
    · rename_i r' b hf
      split
      · refine ⟨⟨hinv.env.nd, hinv.env.lt⟩, (fun y => by rw [places_count, places_count]; simp [cl]), fun hQ => ⟨hQ.eq, hQ.pfs, fun r' y hb => ?_⟩⟩
        exact hQ.cov r' y (List.mem_filter.1 hb).1
      · rename_i hb
        intro hQ
        have hm := List.mem_of_find?_eq_some hf
        apply hb
        rcases hQ.cov _ _ hm with ⟨p, h1, h2⟩ | hc
        · exact mem_heap hinv.own (mem_places_pool h1 h2)
        · exact mem_heap hinv.own (mem_places_client hc)
    · trivial

theorem inv_of {s s' : St} {lost : List Nat} (h : Inv s) (hE : EnvOk s'.env) (hG : GBal s s' lost) : Inv s' :=
  ⟨hE, fun b => by have := hG b; have := h.own b; omega⟩

theorem init_inv : Inv init := ⟨⟨List.nodup_nil, (fun _ h => nomatch h)⟩, fun _ => Nat.le_refl _⟩

theorem init_q : QInv init := ⟨fun _ => rfl, (fun _ h => nomatch h), (fun _ _ h => nomatch h)⟩

theorem step_inv {s s' : St} {op : Op} (hinv : Inv s) (hl : Legal s op) (h : step s op = .ok s' ∨ step s op = .threw s') : Inv s' := by
  by_cases hop : op.isConstruct = true
  · cases op with
    | construct nw np m =>
      have hg := construct_good s nw np m hinv
      have h : construct s nw np m = .ok s' ∨ construct s nw np m = .threw s' := h
      rcases h with h | h <;> rw [h] at hg
      · exact inv_of hinv hg.1 hg.2.1
      · exact ⟨hg.1, fun b => by rw [hg.2.1]; exact Nat.le_trans (hinv.own b) (hg.2.2.1 b)⟩
    | _ => exact nomatch hop
  · have hg := step_good s op hinv hl (by simpa using hop)
    rcases h with h | h <;> rw [h] at hg
    · exact inv_of hinv hg.1 hg.2.1
    · obtain ⟨h1, lost, _, h2⟩ := hg
      exact inv_of hinv h1 h2

theorem step_q {s s' : St} {op : Op} (hinv : Inv s) (hq : QInv s) (hl : Legal s op) (h : step s op = .ok s') : QInv s' := by
  by_cases hop : op.isConstruct = true
  · cases op with
    | construct nw np m =>
      have hg := construct_good s nw np m hinv
      rw [show construct s nw np m = .ok s' from h] at hg
      exact hg.2.2 hq
    | _ => exact nomatch hop
  · have hg := step_good s op hinv hl (by simpa using hop)
    rw [h] at hg
    exact hg.2.2 hq

theorem step_no_ub {s : St} {op : Op} (hinv : Inv s) (hq : QInv s) (hl : Legal s op) : step s op ≠ .ub := by
  intro h
  by_cases hop : op.isConstruct = true
  · cases op with
    | construct nw np m =>
      have hg := construct_good s nw np m hinv
      rw [show construct s nw np m = .ub from h] at hg
      exact hg hq
    | _ => exact nomatch hop
  · have hg := step_good s op hinv hl (by simpa using hop)
    rw [h] at hg
    exact hg hq

theorem reach_inv {oom : Bool} {s : St} (h : Reach oom s) : Inv s := by
  induction h with
  | start => exact init_inv
  | next op _ hl he ih => exact step_inv ih hl (.inl he)
  | threw op _ _ hl he ih => exact step_inv ih hl (.inr he)

theorem reach_q {s : St} (h : Reach false s) : QInv s := by
  generalize ho : false = oom at h
  induction h with
  | start => exact init_q
  | next op hr hl he ih => exact step_q (reach_inv hr) ih hl he
  | threw op h1 _ _ _ _ => exact absurd (ho.trans h1) (by decide)

/-! ### enough memory -/

theorem grow_none : ∀ (n : Nat) (e : Env), ∃ l e1, grow n none e = (l, e1, some none)
  | 0, e => ⟨[], e, rfl⟩
  | n + 1, e => by
    obtain ⟨l, e1, h⟩ := grow_none n { e with heap := e.nblk :: e.heap, nblk := e.nblk + 1 }
    exact ⟨e.nblk :: l, e1, by unfold grow; simp only [alloc]; rw [h]⟩

theorem checkBusy_none (e : Env) : ∀ (l : List WB), ∃ k f, checkBusy e l none = (k, f, some none)
  | [] => ⟨[], [], rfl⟩
  | x :: l => by
    obtain ⟨k, f, h⟩ := checkBusy_none e l
    unfold checkBusy
    split
    · exact ⟨x :: k, f, by rw [h]⟩
    · exact ⟨k, x.blk :: f, by simp only [alloc]; rw [h]⟩

theorem wsteal_none (p : Pool) (e : Env) (c : Nat) : (∀ p' e', wsteal p e c none ≠ .threw p' e') ∧ ∀ b p' m, wsteal p e c none = .ok (b, p', m) → m = none := by
  unfold wsteal
  split
  · exact ⟨(fun p' e' h => nomatch h), fun b p' m h => by injection h with h; injection h with _ h; injection h with _ h; exact h.symm⟩
  · split
    · exact ⟨(fun p' e' h => nomatch h), (fun b p' m h => nomatch h)⟩
    · split
      · exact ⟨(fun p' e' h => nomatch h), (fun b p' m h => nomatch h)⟩
      · split
        · exact ⟨(fun p' e' h => nomatch h), (fun b p' m h => nomatch h)⟩
        · obtain ⟨k, f, hc⟩ := checkBusy_none e (p.wbusy.eraseIdx c)
          rw [hc]
          exact ⟨(fun p' e' h => nomatch h), fun b p' m h => by injection h with h; injection h with _ h; injection h with _ h; exact h.symm⟩

theorem wshrink_none : ∀ (n : Nat) (cs : List Nat) (p : Pool) (e : Env) (p' : Pool) (e' : Env), wshrink n cs p e none ≠ .threw p' e'
  | 0, cs, p, e, p', e' => fun h => nomatch h
  | n + 1, cs, p, e, p', e' => by
    have hw := wsteal_none p e (cs.headD 0)
    unfold wshrink
    split
    · rename_i b p1 m1 h1
      have := hw.2 _ _ _ h1
      subst this
      exact wshrink_none n _ _ _ _ _
    · rename_i p1 e1 h1
      exact absurd h1 (hw.1 _ _)
    · exact fun h => nomatch h
    · exact fun h => nomatch h
    · exact fun h => nomatch h

theorem pshrink_no : ∀ (n : Nat) (p : Pool) (e : Env) (p' : Pool) (e' : Env), pshrink n p e ≠ .threw p' e'
  | 0, p, e, p', e' => fun h => nomatch h
  | n + 1, p, e, p', e' => by
    unfold pshrink
    split
    · exact fun h => nomatch h
    · split
      · exact fun h => nomatch h
      · exact pshrink_no n _ _ _ _

theorem hint_none (p : Pool) (e : Env) (bid : Nat) (p' : Pool) (e' : Env) : hint p e bid none ≠ .threw p' e' := by
  unfold hint
  split
  · exact fun h => nomatch h
  · split
    · exact fun h => nomatch h
    · split
      · exact fun h => nomatch h
      · dsimp only
        split <;> exact fun h => nomatch h

theorem invalidate_none (p : Pool) (e : Env) (bid : Nat) (did : Bool) :
    (∀ p' e', invalidate p e bid did none ≠ .threw p' e') ∧ ∀ b p' e' m, invalidate p e bid did none = .ok (b, p', e', m) → m = none := by
  unfold invalidate
  split
  · exact ⟨(fun p' e' h => nomatch h), fun b p' e' m h => by injection h with h; injection h with _ h; injection h with _ h; injection h with _ h; exact h.symm⟩
  · dsimp only
    split
    · exact ⟨(fun p' e' h => nomatch h), (fun b p' e' m h => nomatch h)⟩
    · exact ⟨(fun p' e' h => nomatch h), fun b p' e' m h => by injection h with h; injection h with _ h; injection h with _ h; injection h with _ h; exact h.symm⟩

theorem write_none (p : Pool) (e : Env) (b bid : Nat) (dids : List Nat) (did : Bool) (p' : Pool) (e' : Env) : write p e b bid dids did none ≠ .threw p' e' := by
  unfold write
  split
  · exact fun h => nomatch h
  · dsimp only [alloc]
    have hi := invalidate_none { stale p bid with wbusy := (stale p bid).wbusy ++ [⟨b, some bid, (cancelOld p e bid dids).nreq⟩] }
      (((cancelOld p e bid dids).submit b).drop b) bid did
    split
    · rename_i p3 e3 m3 h
      have := hi.2 _ _ _ _ h
      subst this
      exact hint_none _ _ _ _ _
    · exact fun h => nomatch h
    · rename_i h
      exact absurd h (hi.1 _ _)
    · exact fun h => nomatch h
    · exact fun h => nomatch h
    · exact fun h => nomatch h

theorem onPool_not_threw {s s' : St} {i : Nat} {f : Pool → Env → Out (Pool × Env)} (h : ∀ p p' e', f p s.env ≠ .threw p' e') : onPool s i f ≠ .threw s' := by
  unfold onPool
  split
  · rename_i p _
    have := h p
    revert this
    cases f p s.env with
    | threw p' e' => exact fun h => absurd rfl (h p' e')
    | _ => exact fun _ h => nomatch h
  · exact fun h => nomatch h

end Foxxll.PoolMem
