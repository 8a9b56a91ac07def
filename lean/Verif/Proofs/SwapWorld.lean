import Verif.Spec.SwapWorld
import Verif.Props.SwapStore
/-
Block schedulers over the same disks do not disturb each other.
-/
namespace Foxxll.SwapStore
open Foxxll

variable {k : Queue.Kind} {qid : Nat → Nat} {cfgs : List (Nat × Bool)} {G : Nat → Nat × Cfg}
variable {w w' : World} {h : Store.Hist} {a : Nat → Swap.Abs Data}

structure WI (k : Queue.Kind) (qid : Nat → Nat) (cfgs : List (Nat × Bool)) (G : Nat → Nat × Cfg) (w : World) (h : Store.Hist) (a : Nat → Swap.Abs Data) : Prop where
  life : Store.Life k qid cfgs (Store.Orderly k) w.d h
  run : ∀ i s, w.cl i = some s → Run k qid cfgs (G i).1 (G i).2 { s with d := w.d } h (a i)
  apart : ∀ i j, i ≠ j → w.cl i ≠ none → w.cl j ≠ none → Apart (G i) (G j)
  own : ∀ i j s t, i ≠ j → w.cl i = some s → w.cl j = some t → ∀ e ∈ s.own, ∀ e' ∈ t.own, s.bid e ≠ t.bid e'

theorem Apart.symm {x y : Nat × Cfg} (h : Apart x y) : Apart y x := fun p q hp hq e => h q p hq hp e.symm

/-- What belongs to one is foreign to the other. -/
theorem inside_foreign {bs cs : List Mgr.Bid} {x y : Nat × Cfg} (hxy : Apart x y) (hb : ∀ b ∈ bs, b ∉ cs) {raw : Nat} {d : Store.St} {op : Store.Op}
    (hi : Inside bs x.2.base (x.2.base + x.2.count x.1) raw op) : E2E.Foreign cs y.2.base (y.2.base + y.2.count y.1) d op := by
  have hr : ∀ buf, x.2.base ≤ buf → buf < x.2.base + x.2.count x.1 → ¬ (y.2.base ≤ buf ∧ buf < y.2.base + y.2.count y.1) := by
    intro buf h1 h2 ⟨h3, h4⟩
    exact hxy (buf - x.2.base) (buf - y.2.base) (by omega) (by omega) (by omega)
  cases op with
  | mgr op =>
    cases op with
    | new f o out => exact trivial
    | delete b => exact hb b hi
  | fill buf data => exact hr buf hi.1 hi.2.1
  | io r wr b buf => exact ⟨hb b hi.1, hr buf hi.2.1 hi.2.2⟩
  | cancel r => cases hi
  | run i op os => exact trivial

/-- Where the blocks of a scheduler come from. -/
theorem step_own (hraw : 0 < g.raw) {m : Store.Hist} {s s' : Sys} (hl : Store.Life k qid cfgs (Store.Orderly k) s.d m) {ev : Ev} (hs : s.step k qid g ev = .ok s')
    (hf : ∀ r f o, ev = .cmd r f o → f o < s.d.m.mgr.disks.length) :
    ∀ e ∈ s'.own, (e ∈ s.own ∧ s'.bid e = s.bid e) ∨ s'.bid e ∉ s.d.m.live ∨ ∃ b v, ev = .adopt b v ∧ s'.bid e = b := by
  have same : s'.own = s.own → s'.bid = s.bid → ∀ e ∈ s'.own, (e ∈ s.own ∧ s'.bid e = s.bid e) ∨ s'.bid e ∉ s.d.m.live ∨ ∃ b v, ev = .adopt b v ∧ s'.bid e = b := by
    intro h1 h2 e he
    exact .inl ⟨h1 ▸ he, by rw [h2]⟩
  cases ev with
  | call op =>
    simp only [Sys.step] at hs
    repeat' split at hs
    all_goals first | (cases hs; done) | (injection hs with hs; subst hs; exact same rfl rfl)
  | ret =>
    simp only [Sys.step] at hs
    repeat' split at hs
    all_goals first | (cases hs; done) | (injection hs with hs; subst hs; exact same rfl rfl)
  | env op => obtain ⟨d, _, rfl⟩ := via_ok hs; exact same rfl rfl
  | drop e =>
    simp only [Sys.step] at hs
    repeat' split at hs
    all_goals first | (cases hs; done) | skip
    injection hs with hs; subst hs
    intro e' he'
    exact .inl ⟨(List.mem_filter.1 he').1, rfl⟩
  | adopt b v =>
    simp only [Sys.step] at hs
    split at hs
    · cases hs
    injection hs with hs; subst hs
    intro e he
    by_cases hp : e = pick s.c.live
    · exact .inr (.inr ⟨b, v, rfl, by show Store.upd s.bid _ b e = b; simp [Store.upd, hp]⟩)
    · refine .inl ⟨(List.mem_cons.1 he).resolve_left hp, ?_⟩
      show Store.upd s.bid _ b e = _
      simp [Store.upd, hp]
  | cmd r f o =>
    have hf := hf r f o rfl
    simp only [Sys.step] at hs
    split at hs
    · cases hs
    rename_i c l ht
    cases c with
    | new e =>
      simp only [Sys.exec] at hs
      split at hs
      · rename_i mgr b hn
        obtain ⟨d, _, rfl⟩ := via_ok hs
        have hb := (new_fresh (Store.life_inv hl).mgr hraw hf hn).2.1
        intro e' he'
        by_cases hp : e' = e
        · refine .inr (.inl ?_)
          show Store.upd s.bid e b e' ∉ _
          simp only [Store.upd, hp, if_pos]; exact hb
        · refine .inl ⟨(List.mem_cons.1 he').resolve_left hp, ?_⟩
          show Store.upd s.bid e b e' = _
          simp [Store.upd, hp]
      · cases hs
    | delete e =>
      simp only [Sys.exec] at hs
      obtain ⟨d, _, rfl⟩ := via_ok hs
      intro e' he'
      exact .inl ⟨(List.mem_filter.1 he').1, rfl⟩
    | wait =>
      simp only [Sys.exec] at hs
      repeat' split at hs
      all_goals first | (cases hs; done) | (injection hs with hs; subst hs; exact same rfl rfl)
    | read p e =>
      simp only [Sys.exec] at hs
      split at hs
      · obtain ⟨d, _, rfl⟩ := via_ok hs; exact same rfl rfl
      · repeat' split at hs
        all_goals first | (cases hs; done) | (injection hs with hs; subst hs; exact same rfl rfl)
    | _ =>
      simp only [Sys.exec] at hs
      obtain ⟨d, _, rfl⟩ := via_ok hs; exact same rfl rfl

theorem own_live (hraw : 0 < g.raw) (hd : g.dflt.length = g.raw) {s : Sys} {memory : Nat} {b : Swap.Abs Data} (hr : Run k qid cfgs memory g s h b) {e : Nat} (he : e ∈ s.own) :
    s.bid e ∈ s.d.m.live := by
  obtain ⟨fu, x, R⟩ := run_inv hraw hd hr
  exact (R.mi.live e he).1

theorem world_inv (hG : ∀ i, 0 < (G i).2.raw ∧ (G i).2.dflt.length = (G i).2.raw) (hr : World.Run k qid cfgs G w h a) : WI k qid cfgs G w h a := by
  induction hr with
  | start hl => exact ⟨hl, fun i s h => (by cases h), fun i j _ h => absurd rfl h, fun i j s t _ h => (by cases h)⟩
  | @next w w' h a act _ hf hs I =>
    cases act with
    | create i =>
      simp only [World.step] at hs
      split at hs
      · cases hs
      rename_i hi
      injection hs with hs; subst hs
      obtain ⟨f1, f2, f3⟩ := hf
      have hup : ∀ j, j ≠ i → Store.upd w.cl i (some (Sys.init (G i).1 (G i).2 w.d)) j = w.cl j := fun j hj => by simp [Store.upd, hj]
      have hui : Store.upd w.cl i (some (Sys.init (G i).1 (G i).2 w.d)) i = some (Sys.init (G i).1 (G i).2 w.d) := by simp [Store.upd]
      refine ⟨I.life, ?_, ?_, ?_⟩
      · intro j s hj
        simp only at hj
        by_cases hji : j = i
        · subst hji
          rw [hui] at hj; injection hj with hj; subst hj
          have hk : w.known G a (.create j) j = {} := by simp [World.known, Store.upd]
          rw [hk]
          exact Run.start I.life f1 f2
        · rw [hup j hji] at hj
          have hk : w.known G a (.create i) j = a j := by simp [World.known, Store.upd, hji]
          rw [hk]
          exact I.run j s hj
      · intro j j' hne h1 h2
        simp only at h1 h2
        by_cases hji : j = i
        · subst hji
          rw [hup j' (Ne.symm hne)] at h2
          exact f3 j' h2
        · rw [hup j hji] at h1
          by_cases hji' : j' = i
          · subst hji'; exact (f3 j h1).symm
          · rw [hup j' hji'] at h2
            exact I.apart j j' hne h1 h2
      · intro j j' s t hne h1 h2 e he e' he'
        simp only at h1 h2
        by_cases hji : j = i
        · subst hji
          rw [hui] at h1; injection h1 with h1; subst h1
          cases he
        · rw [hup j hji] at h1
          by_cases hji' : j' = i
          · subst hji'
            rw [hui] at h2; injection h2 with h2; subst h2
            cases he'
          · rw [hup j' hji'] at h2
            exact I.own j j' s t hne h1 h2 e he e' he'
    | env op =>
      simp only [World.step] at hs
      obtain ⟨d', h1, h2⟩ := Option.map_eq_some_iff.1 hs
      subst h2
      obtain ⟨f1, f2, f3⟩ := hf
      refine ⟨.next op I.life f1 f2 h1, ?_, I.apart, I.own⟩
      intro j s hj
      have hst : Sys.step k qid (G j).2 { s with d := w.d } (.env op) = .ok { s with d := d' } := by
        simp only [Sys.step, Sys.via, h1]
      exact Run.next (.env op) (I.run j s hj) ⟨f1, f2, f3 j s hj⟩ hst
    | go i ev =>
      simp only [World.step] at hs
      split at hs
      · cases hs
      rename_i s hi
      split at hs
      case h_2 => cases hs
      rename_i s' hs'
      injection hs with hs; subst hs
      obtain ⟨f1, f2, f3⟩ := hf
      have f1 := f1 s hi
      have hrun := I.run i s hi
      have hnew := Run.next ev hrun f1 hs'
      have hst : w.store G (.go i ev) = Sys.store (G i).2 { s with d := w.d } ev := by simp [World.store, hi]
      have hkn : ∀ j, w.known G a (.go i ev) j = if j = i then SwapStore.known (G i).2 { s with d := w.d } (a i) ev else a j := by
        intro j; simp [World.known, hi, Store.upd]
      have hup : ∀ j, j ≠ i → Store.upd w.cl i (some s') j = w.cl j := fun j hj => by simp [Store.upd, hj]
      have hui : Store.upd w.cl i (some s') i = some s' := by simp [Store.upd]
      have hex : ∀ j, Store.upd w.cl i (some s') j ≠ none → w.cl j ≠ none := by
        intro j hj
        by_cases hji : j = i
        · subst hji; rw [hi]; simp
        · rw [hup j hji] at hj; exact hj
      have hdisks : ∀ r f o, ev = .cmd r f o → f o < w.d.m.mgr.disks.length := by
        intro r f o e; subst e; exact f1.2
      have hown := step_own (g := (G i).2) (hG i).1 (s := { s with d := w.d }) I.life hs' hdisks
      -- the step of the store
      have hop : (Sys.store (G i).2 { s with d := w.d } ev = none ∧ s'.d = w.d) ∨
          ∃ op, Sys.store (G i).2 { s with d := w.d } ev = some op ∧ Store.step k qid w.d op = some s'.d ∧ Store.Allowed k qid w.d op ∧ Store.Orderly k op ∧
            Inside (s.own.map s.bid) (G i).2.base ((G i).2.base + (G i).2.count (G i).1) (G i).2.raw op := by
        rcases step_store hs' with h1 | ⟨op, h1, h2⟩
        · exact .inl h1
        · refine .inr ⟨op, h1, h2, ?_⟩
          cases ev with
          | cmd r f o =>
            obtain ⟨c1, c2⟩ := C138_rules (hG i).1 (hG i).2 hrun f1.1 f1.2 h1
            refine ⟨c1, ?_, c2⟩
            intro _ r' e
            subst e; cases c2
          | env op' => exact absurd rfl (f2 op')
          | _ => cases h1
      refine ⟨?_, ?_, ?_, ?_⟩
      · rw [hst]
        rcases hop with ⟨h1, h2⟩ | ⟨op, h1, h2, h3, h4, _⟩
        · rw [h1]; show Store.Life k qid cfgs _ s'.d h; rw [h2]; exact I.life
        · rw [h1]; exact .next op I.life h3 h4 h2
      · intro j t hj
        simp only at hj
        rw [hst, hkn]
        by_cases hji : j = i
        · subst hji
          rw [hui] at hj; injection hj with hj; subst hj
          rw [if_pos rfl]
          exact hnew
        · rw [if_neg hji]
          rw [hup j hji] at hj
          rcases hop with ⟨h1, h2⟩ | ⟨op, h1, h2, h3, h4, h5⟩
          · rw [h1]; show Run k qid cfgs _ _ { t with d := s'.d } h (a j); rw [h2]; exact I.run j t hj
          · rw [h1]
            have hb : ∀ b ∈ s.own.map s.bid, b ∉ t.own.map t.bid := by
              intro b hb hc
              obtain ⟨e, g1, rfl⟩ := List.mem_map.1 hb
              obtain ⟨e', g2, g3⟩ := List.mem_map.1 hc
              exact I.own i j s t (Ne.symm hji) hi hj e g1 e' g2 g3.symm
            have hfor := inside_foreign (d := w.d) (I.apart i j (Ne.symm hji) (by rw [hi]; simp) (by rw [hj]; simp)) hb h5
            have hst' : Sys.step k qid (G j).2 { t with d := w.d } (.env op) = .ok { t with d := s'.d } := by
              simp only [Sys.step, Sys.via, h2]
            exact Run.next (.env op) (I.run j t hj) ⟨h3, h4, hfor⟩ hst'
      · intro j j' hne h1 h2
        exact I.apart j j' hne (hex j h1) (hex j' h2)
      · have key : ∀ j t, j ≠ i → w.cl j = some t → ∀ e ∈ s'.own, ∀ e' ∈ t.own, s'.bid e ≠ t.bid e' := by
          intro j t hji hj e he e' he' heq
          rcases hown e he with ⟨g1, g2⟩ | g | ⟨b, v, g1, g2⟩
          · exact I.own i j s t (Ne.symm hji) hi hj e g1 e' he' (by rw [← g2]; exact heq)
          · exact g (by rw [heq]; exact own_live (hG j).1 (hG j).2 (I.run j t hj) he')
          · exact f3 b v g1 j t hj e' he' (by rw [← g2]; exact heq.symm)
        intro j j' t u hne h1 h2 e he e' he'
        simp only at h1 h2
        by_cases hji : j = i
        · subst hji
          rw [hui] at h1; injection h1 with h1; subst h1
          rw [hup j' (Ne.symm hne)] at h2
          exact key j' u (Ne.symm hne) h2 e he e' he'
        · rw [hup j hji] at h1
          by_cases hji' : j' = i
          · subst hji'
            rw [hui] at h2; injection h2 with h2; subst h2
            exact (key j t hji h1 e' he' e he).symm
          · rw [hup j' hji'] at h2
            exact I.own j j' t u hne h1 h2 e he e' he'

theorem world_known_cmd {i : Nat} {r : Nat} {f : Nat → Nat} {o : Nat} : w.known G a (.go i (.cmd r f o)) = a := by
  simp only [World.known]
  split
  · funext j
    simp only [Store.upd, SwapStore.known]
    split
    · rename_i e; rw [e]
    · rfl
  · rfl

/-- Steps of one scheduler inside of a call, as steps of all. -/
theorem leads_world {i : Nat} {os : Nat → Files.Sys} {s t : Sys} {h h' : Store.Hist} (hl : Leads k qid (G i).1 (G i).2 (a i) os s h t h') :
    ∀ {w : World} {s0 : Sys}, w.cl i = some s0 → { s0 with d := w.d } = s →
      ∃ w' t0, World.Leads k qid G a i os w h w' h' ∧ w'.cl i = some t0 ∧ { t0 with d := w'.d } = t ∧ ∀ j, j ≠ i → w'.cl j = w.cl j := by
  induction hl with
  | refl s h => intro w s0 h1 h2; exact ⟨w, s0, .refl _ _, h1, h2, fun _ _ => rfl⟩
  | @next s s' t h h' ev hin hf hs _ ih =>
    intro w s0 h1 h2
    subst h2
    cases ev with
    | cmd r f o =>
      have hst : w.step k qid G (.go i (.cmd r f o)) = some { d := s'.d, cl := Store.upd w.cl i (some s') } := by
        simp only [World.step, h1, hs]
      obtain ⟨w', t0, g1, g2, g3, g4⟩ := ih (w := { d := s'.d, cl := Store.upd w.cl i (some s') }) (s0 := s') (by simp [Store.upd]) rfl
      have hso : w.store G (.go i (.cmd r f o)) = Sys.store (G i).2 { s0 with d := w.d } (.cmd r f o) := by simp [World.store, h1]
      refine ⟨w', t0, .next (.go i (.cmd r f o)) (by exact rfl) ⟨?_, (fun op e => by cases e), (fun b v e => by cases e)⟩ hst (by rw [hso]; exact g1), g2, g3, ?_⟩
      · intro s1 hs1
        have e : s0 = s1 := Option.some.inj (h1.symm.trans hs1)
        subst e
        exact hf
      · intro j hj
        rw [g4 j hj]
        simp [Store.upd, hj]
    | env op =>
      cases op with
      | run n op os' =>
        obtain ⟨d', e1, e2⟩ := via_ok hs
        subst e2
        have hst : w.step k qid G (.env (.run n op os')) = some { w with d := d' } := by
          simp only [World.step]
          rw [show Store.step k qid w.d (.run n op os') = some d' from e1]; rfl
        obtain ⟨w', t0, g1, g2, g3, g4⟩ := ih (w := { w with d := d' }) (s0 := s0) h1 rfl
        exact ⟨w', t0, .next (.env (.run n op os')) hin ⟨hf.1, hf.2.1, fun _ _ _ => trivial⟩ hst g1, g2, g3, g4⟩
      | _ => cases hin
    | _ => cases hin

theorem World.Leads.run {i : Nat} {os : Nat → Files.Sys} {h' : Store.Hist} (hl : World.Leads k qid G a i os w h w' h') (hr : World.Run k qid cfgs G w h a) :
    World.Run k qid cfgs G w' h' a := by
  induction hl with
  | refl => exact hr
  | @next w w' v h h' act hin hf hs _ ih =>
    refine ih ?_
    have := World.Run.next act hr hf hs
    cases act with
    | go j ev =>
      cases ev with
      | cmd r f o => rw [world_known_cmd] at this; exact this
      | _ => cases hin
    | env op => exact this
    | create => cases hin

end Foxxll.SwapStore
