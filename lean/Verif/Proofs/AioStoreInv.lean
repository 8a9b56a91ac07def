import Verif.Proofs.AioStore
import Verif.Proofs.Store
/-
Invariant of the composition of block manager, linuxaio queues, kernel and files.
-/
namespace Foxxll.AioStore
open Foxxll
open Foxxll.Store (Req Wrote Hist upd bytesOf grown upd_same upd_other upd_cases live_inside live_apart grown_byte bytesOf_step Apart)

variable {qid : Nat → Nat} {cfgs : List (Nat × Bool)}

/-- The kernel has begun to write the data of `e`, or they are written. -/
def Begun (qid : Nat → Nat) (s : St) (d : Nat) (e : Wrote) : Prop := s.moved e.r ≠ [] ∨ (e.r, true) ∈ (s.qs (qid d)).comp

structure Inv (qid : Nat → Nat) (cfgs : List (Nat × Bool)) (s : St) (h : Hist) : Prop where
  mgr : Mgr.MReach cfgs s.m
  que : ∀ i, Aio.Inv (s.qs i)
  sub : ∀ i x, x ∈ (s.qs i).subm → ∃ q, s.reqs x = some q ∧ qid q.disk = i
  req : ∀ x q, s.reqs x = some q → x ∈ (s.qs (qid q.disk)).subm
  non : ∀ x, s.reqs x = none → s.moved x = []
  unt : ∀ x q, s.reqs x = some q → Aio.Untouched (s.qs (qid q.disk)) x → s.moved x = []
  full : ∀ x q, s.reqs x = some q → Aio.Reaped (s.qs (qid q.disk)) x → x ∉ (s.qs (qid q.disk)).kerr → ∀ j, j < q.size → j ∈ s.moved x
  buf : ∀ x q, Pending qid s x → s.reqs x = some q → (s.mem q.buf).length = q.size
  own : ∀ x q y q', Pending qid s x → Pending qid s y → s.reqs x = some q → s.reqs y = some q' → q.write = false → q.buf = q'.buf → x = y
  on : ∀ x q, Pending qid s x → s.reqs x = some q → ∃ b ∈ s.m.live, q.On b
  ord : ∀ x q y q' b, Pending qid s x → Pending qid s y → s.reqs x = some q → s.reqs y = some q' → q.write = true → b ∈ s.m.live → q.On b → q'.On b → x = y
  mov : ∀ x q, Pending qid s x → s.reqs x = some q → ∀ j ∈ s.moved x, j < q.size ∧ (s.mem q.buf).getD j 0 = (s.files q.disk).byte (q.off + j)
  log : ∀ e ∈ h.log, e.b ∈ s.m.live ∧ ∃ q, s.reqs e.r = some q ∧ q.write = true ∧ q.On e.b ∧ e.data.length = q.size ∧ (Pending qid s e.r → s.mem q.buf = e.data)
  head : ∀ x q b, Pending qid s x → s.reqs x = some q → q.write = true → b ∈ s.m.live → q.On b → ∃ e L, h.of b = e :: L ∧ e.r = x
  rds : ∀ x q b, Pending qid s x → s.reqs x = some q → q.write = false → b ∈ s.m.live → q.On b → h.seen x = h.of b
  val : ∀ b ∈ s.m.live, ∀ d, b.storage = .managed d → ∀ L1 e L2, h.of b = L1 ++ e :: L2 → (∀ e' ∈ L1, ¬ Begun qid s d e') →
    (e.r, true) ∈ (s.qs (qid d)).comp → e.r ∉ (s.qs (qid d)).kerr → ∀ j, j < b.size → (s.files d).byte (b.off + j) = e.data.getD j 0

theorem inv_init {m : Mgr.Manager} {files : Nat → Files.File} {mem : Nat → List UInt8} {maxE : Nat → Nat} (hm : Mgr.Manager.create cfgs = .ok m)
    (he : ∀ i, 0 < maxE i) : Inv qid cfgs (init m files mem maxE) ⟨[], fun _ => []⟩ where
  mgr := .init hm
  que := fun i => Aio.inv_init (he i)
  sub := by intro i x h; simp [init, Aio.init] at h
  req := by intro x q h; simp [init] at h
  non := by intro x _; rfl
  unt := by intro x q h; simp [init] at h
  full := by intro x q h; simp [init] at h
  buf := by intro x q _ h; simp [init] at h
  own := by intro x q y q' _ _ h; simp [init] at h
  on := by intro x q _ h; simp [init] at h
  ord := by intro x q y q' b _ _ h; simp [init] at h
  mov := by intro x q _ h; simp [init] at h
  log := by simp
  head := by intro x q b _ h; simp [init] at h
  rds := by intro x q b _ h; simp [init] at h
  val := by intro b hb; simp [init] at hb

/-- Two live blocks one request concerns are the same. -/
theorem Inv.same {s : St} {h : Hist} (I : Inv qid cfgs s h) {q : Req} {b c : Mgr.Bid} (hb : b ∈ s.m.live) (hc : c ∈ s.m.live) (h1 : q.On b) (h2 : q.On c) : b = c := by
  by_cases e : b = c
  · exact e
  exfalso
  have ha := live_apart I.mgr hb hc e (h1.1.trans h2.1.symm)
  obtain ⟨_, _, hp, _⟩ := live_inside I.mgr hb
  have e1 := h1.2.1; have e2 := h1.2.2; have e3 := h2.2.1; have e4 := h2.2.2
  unfold Apart at ha
  omega

theorem Inv.apart {s : St} {h : Hist} (I : Inv qid cfgs s h) {q q' : Req} {b c : Mgr.Bid} (hb : b ∈ s.m.live) (hc : c ∈ s.m.live) (h1 : q.On b) (h2 : q'.On c)
    (hbc : b ≠ c) (hd : q.disk = q'.disk) : Apart q.off q.size q'.off q'.size := by
  have ha := live_apart I.mgr hb hc hbc (by rw [h1.1, h2.1, hd])
  rw [← h1.2.1, ← h1.2.2, ← h2.2.1, ← h2.2.2]
  exact ha

theorem comp_sub {s : Aio.St} (hi : Aio.Inv s) {x : Nat} (h : x ∈ s.comp.map (·.1)) : x ∈ s.subm := by
  have hc := hi.cons x
  have := List.count_pos_iff.2 h
  simp only [Aio.places] at hc
  exact List.count_pos_iff.1 (by omega)

theorem infl_sub {s : Aio.St} (hi : Aio.Inv s) {x : Nat} (h : x ∈ s.infl) : x ∈ s.subm := by
  have hc := hi.cons x
  have := List.count_pos_iff.2 h
  simp only [Aio.places] at hc
  exact List.count_pos_iff.1 (by omega)

theorem comp_once {s : Aio.St} (hi : Aio.Inv s) {x : Nat} (h1 : (x, true) ∈ s.comp) (h2 : (x, false) ∈ s.comp) : False := by
  have hc := hi.cons x
  have hn : s.subm.count x ≤ 1 := List.nodup_iff_count.1 hi.nd x
  simp only [Aio.places] at hc
  have hle : (s.comp.map (·.1)).count x ≤ 1 := by omega
  obtain ⟨A, B, e⟩ := List.append_of_mem h1
  rw [e] at h2 hle
  simp only [List.map_append, List.map_cons, List.count_append, List.count_cons_self] at hle
  rcases List.mem_append.1 h2 with h | h
  · have := List.count_pos_iff.2 (List.mem_map.2 ⟨_, h, rfl⟩ : x ∈ A.map (·.1))
    omega
  · rcases List.mem_cons.1 h with h | h
    · cases h
    · have := List.count_pos_iff.2 (List.mem_map.2 ⟨_, h, rfl⟩ : x ∈ B.map (·.1))
      omega

theorem queue_some {s s' : St} {i : Nat} {op : Aio.Op} (h : s.queue i op = some s') :
    ∃ q, Aio.step (s.qs i) op = .ok q ∧ s' = { s with qs := upd s.qs i q } := by
  unfold St.queue at h
  split at h
  · rename_i q hq
    injection h with h
    exact ⟨q, hq, h.symm⟩
  · cases h

theorem honest_iff {s : St} {o : Aio.Kernel} (h : s.honest o = true) {x : Nat} {q : Req} (hx : x ∈ o.evs) (hb : x ∉ o.bad) (hq : s.reqs x = some q) :
    ∀ j, j < q.size → j ∈ s.moved x := by
  unfold St.honest at h
  have := List.all_eq_true.1 h x hx
  rw [hq] at this
  simp only [List.contains_eq_mem, Bool.or_eq_true, decide_eq_true_eq, List.all_eq_true, List.mem_range] at this
  rcases this with h | h
  · exact absurd h hb
  · exact h

/-! ### Steps of the threads -/

theorem Inv.quiet {s : St} {h : Hist} (I : Inv qid cfgs s h) {i : Nat} {op : Aio.Op} {q : Aio.St} (hn : Aio.NoConfirm (s.qs i) op)
    (ha : op.adds = []) (ho : s.honest op.kernel = true) (hs : Aio.step (s.qs i) op = .ok q) :
    Inv qid cfgs { s with qs := upd s.qs i q } h := by
  obtain ⟨hf, hsub⟩ := Aio.frame_step (I.que i) hn hs
  rw [ha, List.append_nil] at hsub
  have hF : ∀ j, Aio.Frame op.kernel (s.qs j) (upd s.qs i q j) :=
    upd_cases (P := fun j a => Aio.Frame op.kernel (s.qs j) a) hf (fun j => ⟨fun _ h => h, fun _ h => .inl h, fun _ h => h, fun _ h => h⟩)
  have hS : ∀ j, (upd s.qs i q j).subm = (s.qs j).subm := upd_cases (P := fun j (a : Aio.St) => a.subm = (s.qs j).subm) hsub (fun _ => rfl)
  have hp : ∀ x, Pending qid { s with qs := upd s.qs i q } x → Pending qid s x := by
    rintro x ⟨q', h1, h2⟩
    refine ⟨q', h1, fun h3 => h2 ?_⟩
    obtain ⟨c, hc, rfl⟩ := List.mem_map.1 h3
    exact List.mem_map.2 ⟨c, (hF _).comp c hc, rfl⟩
  have hQ : ∀ j, Aio.Inv (upd s.qs i q j) := upd_cases (P := fun _ a => Aio.Inv a) (Aio.inv_step (I.que i) hn hs) I.que
  have hfull : ∀ x q', s.reqs x = some q' → Aio.Reaped (upd s.qs i q (qid q'.disk)) x → x ∉ (upd s.qs i q (qid q'.disk)).kerr →
      ∀ j, j < q'.size → j ∈ s.moved x := by
    intro x q' hq hr hk
    rcases (hF _).rea x hr with h1 | ⟨h1, h2⟩
    · exact I.full x q' hq h1 (fun h => hk ((hF _).kerr x h))
    · exact honest_iff ho h1 (fun hb => hk (h2 hb)) hq
  constructor
  · exact I.mgr
  · exact hQ
  · intro j x hx; exact I.sub j x (by rw [← hS]; exact hx)
  · intro x q' hq; show x ∈ (upd s.qs i q _).subm; rw [hS]; exact I.req x q' hq
  · exact I.non
  · intro x q' hq hu; exact I.unt x q' hq ((hF _).unt x hu)
  · exact hfull
  · intro x q' hx hq; exact I.buf x q' (hp x hx) hq
  · intro x q1 y q2 hx hy; exact I.own x q1 y q2 (hp x hx) (hp y hy)
  · intro x q' hx hq; exact I.on x q' (hp x hx) hq
  · intro x q1 y q2 b hx hy; exact I.ord x q1 y q2 b (hp x hx) (hp y hy)
  · intro x q' hx hq; exact I.mov x q' (hp x hx) hq
  · intro e he
    obtain ⟨h1, q', h2, h3, h4, h5, h6⟩ := I.log e he
    exact ⟨h1, q', h2, h3, h4, h5, fun hx => h6 (hp _ hx)⟩
  · intro x q' b hx; exact I.head x q' b (hp x hx)
  · intro x q' b hx; exact I.rds x q' b (hp x hx)
  · intro b hb d hd L1 e L2 hL hL1 hc hk
    have hk' : e.r ∉ (s.qs (qid d)).kerr := fun h => hk ((hF _).kerr _ h)
    have hL1' : ∀ e' ∈ L1, ¬ Begun qid s d e' := by
      intro e' he' hB
      refine hL1 e' he' ?_
      rcases hB with hB | hB
      · exact .inl hB
      · exact .inr ((hF _).comp _ hB)
    by_cases hold : (e.r, true) ∈ (s.qs (qid d)).comp
    · exact I.val b hb d hd L1 e L2 hL hL1' hold hk'
    · -- completed in this step
      have hem : e ∈ h.of b := by rw [hL]; simp
      have hel : e ∈ h.log := (List.mem_filter.1 hem).1
      have heb : e.b = b := by simpa using (List.mem_filter.1 hem).2
      obtain ⟨_, q', g1, g2, g3, g4, g5⟩ := I.log e hel
      have hdq : q'.disk = d := by
        have := g3.1; rw [heb, hd] at this; injection this with this; exact this.symm
      have hpen : Pending qid s e.r := by
        refine ⟨q', g1, fun hm => ?_⟩
        rw [hdq] at hm
        obtain ⟨⟨x, v⟩, hcm, hx⟩ := List.mem_map.1 hm
        simp only at hx; subst hx
        cases v with
        | true => exact hold hcm
        | false => exact comp_once (hQ (qid d)) hc ((hF _).comp _ hcm)
      obtain ⟨e0, L, p1, p2⟩ := I.head e.r q' b hpen g1 g2 hb (heb ▸ g3)
      have hL1e : L1 = [] := by
        cases L1 with
        | nil => rfl
        | cons a A =>
          exfalso
          rw [hL] at p1
          simp only [List.cons_append] at p1
          injection p1 with p1 _
          refine hL1 a (by simp) (.inr ?_)
          rw [p1, p2]; exact hc
      have hfm := hfull e.r q' g1 (.inr (.inr (by rw [hdq]; exact hc))) (by rw [hdq]; exact hk)
      intro j hj
      have hsz := g3.2.2; have hof := g3.2.1
      rw [heb] at hsz hof
      obtain ⟨_, hm⟩ := I.mov e.r q' hpen g1 j (hfm j (by omega))
      show (s.files d).byte (b.off + j) = _
      rw [hof, ← hdq, ← hm, g5 hpen]

/-! ### The client fills a buffer -/

theorem Inv.fill {s : St} {h : Hist} (I : Inv qid cfgs s h) {buf : Nat} {data : List UInt8}
    (ha : ∀ r q, Pending qid s r → s.reqs r = some q → q.buf ≠ buf) : Inv qid cfgs { s with mem := upd s.mem buf data } h := by
  have hm : ∀ x q, Pending qid s x → s.reqs x = some q → upd s.mem buf data q.buf = s.mem q.buf := fun x q hx hq => upd_other _ _ (ha x q hx hq)
  constructor
  · exact I.mgr
  · exact I.que
  · exact I.sub
  · exact I.req
  · exact I.non
  · exact I.unt
  · exact I.full
  · intro x q hx hq; show (upd s.mem buf data q.buf).length = _; rw [hm x q hx hq]; exact I.buf x q hx hq
  · exact I.own
  · exact I.on
  · exact I.ord
  · intro x q hx hq; show ∀ j ∈ _, _ ∧ (upd s.mem buf data q.buf).getD j 0 = _; rw [hm x q hx hq]; exact I.mov x q hx hq
  · intro e he
    obtain ⟨h1, q, h2, h3, h4, h5, h6⟩ := I.log e he
    refine ⟨h1, q, h2, h3, h4, h5, fun hx => ?_⟩
    show upd s.mem buf data q.buf = _
    rw [hm e.r q hx h2]; exact h6 hx
  · exact I.head
  · exact I.rds
  · exact I.val

/-! ### Allocation and deletion -/

theorem of_filter (h : Hist) {b c : Mgr.Bid} (hbc : c ≠ b) : Hist.of { h with log := h.log.filter (fun e => e.b ≠ b) } c = h.of c := by
  unfold Hist.of
  simp only [List.filter_filter]
  apply List.filter_congr
  intro e _
  by_cases he : e.b = c
  · simp [he, hbc]
  · simp [he]

theorem Inv.alloc {s : St} {h : Hist} (I : Inv qid cfgs s h) {op : Mgr.MOp} (ha : op.Valid s.m) (hw : Waits qid s (.mgr op)) :
    Inv qid cfgs { s with m := s.m.step op, files := fun d => grown (bytesOf s.m d) (bytesOf (s.m.step op) d) (s.files d) } (remember h s (.mgr op)) := by
  -- the blocks
  have hlive : ∀ b ∈ s.m.live, (∀ c, op = .delete c → b ≠ c) → b ∈ (s.m.step op).live := by
    intro b hb hne
    cases op with
    | new f o out => exact Store.new_live hb
    | delete c => exact Store.delete_live hb (hne c rfl)
  have hbyte : ∀ b ∈ s.m.live, ∀ d, b.storage = .managed d → ∀ j, j < b.size →
      (grown (bytesOf s.m d) (bytesOf (s.m.step op) d) (s.files d)).byte (b.off + j) = (s.files d).byte (b.off + j) := by
    intro b hb d hd j hj
    obtain ⟨d', e1, _, e3⟩ := live_inside I.mgr hb
    rw [hd] at e1; injection e1 with e1; subst e1
    exact grown_byte (by omega)
  have hpend : ∀ x q, Pending qid s x → s.reqs x = some q → ∃ b ∈ s.m.live, q.On b ∧ (∀ c, op = .delete c → b ≠ c) := by
    intro x q hx hq
    obtain ⟨b, hb, hon⟩ := I.on x q hx hq
    refine ⟨b, hb, hon, fun c hc e => ?_⟩
    subst hc; subst e
    exact hw x q hx hq hon
  have hof : ∀ b, (∀ c, op = .delete c → b ≠ c) → (remember h s (.mgr op)).of b = h.of b := by
    intro b hne
    cases op with
    | new f o out => rfl
    | delete c => exact of_filter h (hne c rfl)
  have hseen : (remember h s (.mgr op)).seen = h.seen := by cases op <;> rfl
  have hlog : ∀ e ∈ (remember h s (.mgr op)).log, e ∈ h.log ∧ ∀ c, op = .delete c → e.b ≠ c := by
    intro e he
    cases op with
    | new f o out => exact ⟨he, fun c hc => by cases hc⟩
    | delete c =>
      have := List.mem_filter.1 he
      exact ⟨this.1, fun c' hc => by injection hc with hc; subst hc; simpa using this.2⟩
  have hback : ∀ q : Req, ∀ b ∈ (s.m.step op).live, q.On b → ∀ c ∈ s.m.live, q.On c → (∀ c', op = .delete c' → c ≠ c') → b = c := by
    intro q b hb h1 c hc h2 hne
    have hr : Mgr.MReach cfgs (s.m.step op) := .step I.mgr ha
    by_cases e : b = c
    · exact e
    exfalso
    have hap := live_apart hr hb (hlive c hc hne) e (h1.1.trans h2.1.symm)
    obtain ⟨_, _, hp, _⟩ := live_inside hr hb
    have e1 := h1.2.1; have e2 := h1.2.2; have e3 := h2.2.1; have e4 := h2.2.2
    unfold Apart at hap
    omega
  constructor
  · exact .step I.mgr ha
  · exact I.que
  · exact I.sub
  · exact I.req
  · exact I.non
  · exact I.unt
  · exact I.full
  · exact I.buf
  · exact I.own
  · intro x q hx hq
    obtain ⟨b, h1, h2, h3⟩ := hpend x q hx hq
    exact ⟨b, hlive b h1 h3, h2⟩
  · intro x q y q' b hx hy h1 h2 h3 h4 h5 h6
    obtain ⟨c, g1, g2, g3⟩ := hpend x q hx h1
    have e := hback q b h4 h5 c g1 g2 g3
    subst e
    exact I.ord x q y q' b hx hy h1 h2 h3 g1 h5 h6
  · intro x q hx hq j hj
    obtain ⟨b, h1, h2, _⟩ := hpend x q hx hq
    obtain ⟨m1, m2⟩ := I.mov x q hx hq j hj
    refine ⟨m1, m2.trans ?_⟩
    have := hbyte b h1 q.disk h2.1 j (by rw [h2.2.2]; exact m1)
    rw [h2.2.1] at this
    exact this.symm
  · intro e he
    obtain ⟨h1, h2⟩ := hlog e he
    obtain ⟨g1, q, g2⟩ := I.log e h1
    exact ⟨hlive _ g1 h2, q, g2⟩
  · intro x q b hx h1 h2 h3 h4
    obtain ⟨c, g1, g2, g3⟩ := hpend x q hx h1
    have e := hback q b h3 h4 c g1 g2 g3
    subst e
    rw [hof b g3]
    exact I.head x q b hx h1 h2 g1 h4
  · intro x q b hx h1 h2 h3 h4
    obtain ⟨c, g1, g2, g3⟩ := hpend x q hx h1
    have e := hback q b h3 h4 c g1 g2 g3
    subst e
    rw [hof b g3, hseen]
    exact I.rds x q b hx h1 h2 g1 h4
  · intro b hb d hd L1 e L2 hL hL1 hc hk j hj
    have hem : e ∈ (remember h s (.mgr op)).of b := by rw [hL]; simp
    have hm := List.mem_filter.1 hem
    have heb : e.b = b := by simpa using hm.2
    obtain ⟨h1, h2⟩ := hlog e hm.1
    have hbl : b ∈ s.m.live := by rw [← heb]; exact (I.log e h1).1
    rw [heb] at h2
    rw [hof b h2] at hL
    have := I.val b hbl d hd L1 e L2 hL hL1 hc hk j hj
    rw [← this]
    exact hbyte b hbl d hd j hj

/-! ### A new request -/

theorem add_same {s s' : Aio.St} {r : Nat} (h : Aio.step s (.add r) = .ok s') :
    s'.comp = s.comp ∧ s'.kerr = s.kerr ∧ s'.subm = s.subm ++ [r] ∧ ∀ x, Aio.Reaped s' x → Aio.Reaped s x := by
  simp only [Aio.step] at h
  split at h
  · cases h
  split at h
  · cases h
  injection h with h; subst h
  exact ⟨rfl, rfl, rfl, fun _ h => h⟩

theorem of_cons (h : Hist) (e : Wrote) (c : Mgr.Bid) : Hist.of { h with log := e :: h.log } c = if e.b = c then e :: h.of c else h.of c := by
  unfold Hist.of
  by_cases hc : e.b = c <;> simp [hc]

theorem Inv.io {s : St} {h : Hist} (I : Inv qid cfgs s h) {r buf d : Nat} {w : Bool} {b : Mgr.Bid} {t : Aio.St} (hd : b.storage = .managed d)
    (ha : Allowed qid s (.io r w b buf)) (hw : Waits qid s (.io r w b buf)) (hs : Aio.step (s.qs (qid d)) (.add r) = .ok t) :
    Inv qid cfgs { s with reqs := upd s.reqs r (some ⟨d, w, b.off, b.size, buf⟩), qs := upd s.qs (qid d) t } (remember h s (.io r w b buf)) := by
  obtain ⟨hnone, hb, hlen, hbufs⟩ := ha
  obtain ⟨k1, k2, k3, k4⟩ := add_same hs
  have hnc : Aio.NoConfirm (s.qs (qid d)) (.add r) := fun _ h => by cases h
  obtain ⟨hf, _⟩ := Aio.frame_step (I.que _) hnc hs
  have hC : ∀ j, (upd s.qs (qid d) t j).comp = (s.qs j).comp := upd_cases (P := fun j (a : Aio.St) => a.comp = (s.qs j).comp) k1 (fun _ => rfl)
  have hK : ∀ j, (upd s.qs (qid d) t j).kerr = (s.qs j).kerr := upd_cases (P := fun j (a : Aio.St) => a.kerr = (s.qs j).kerr) k2 (fun _ => rfl)
  have hU : ∀ j x, Aio.Untouched (upd s.qs (qid d) t j) x → Aio.Untouched (s.qs j) x :=
    upd_cases (P := fun j (a : Aio.St) => ∀ x, Aio.Untouched a x → Aio.Untouched (s.qs j) x) hf.unt (fun _ _ h => h)
  have hR : ∀ j x, Aio.Reaped (upd s.qs (qid d) t j) x → Aio.Reaped (s.qs j) x :=
    upd_cases (P := fun j (a : Aio.St) => ∀ x, Aio.Reaped a x → Aio.Reaped (s.qs j) x) k4 (fun _ _ h => h)
  have hold : ∀ x q, x ≠ r → upd s.reqs r (some (⟨d, w, b.off, b.size, buf⟩ : Req)) x = some q → s.reqs x = some q := by
    intro x q hx h1; rwa [upd_other _ _ hx] at h1
  have hnew : ∀ q, upd s.reqs r (some (⟨d, w, b.off, b.size, buf⟩ : Req)) r = some q → q = ⟨d, w, b.off, b.size, buf⟩ := by
    intro q h1; rw [upd_same] at h1; injection h1 with h1; exact h1.symm
  have hp : ∀ x, x ≠ r → Pending qid { s with reqs := upd s.reqs r (some ⟨d, w, b.off, b.size, buf⟩), qs := upd s.qs (qid d) t } x → Pending qid s x := by
    rintro x hx ⟨q, h1, h2⟩
    refine ⟨q, hold x q hx h1, ?_⟩
    have h2 : x ∉ (upd s.qs (qid d) t (qid q.disk)).comp.map (·.1) := h2
    rwa [hC] at h2
  have hnr : ∀ j, r ∉ (s.qs j).subm := by
    intro j hj
    obtain ⟨q, h1, _⟩ := I.sub j r hj
    rw [hnone] at h1; cases h1
  have hnrc : ∀ j v, (r, v) ∉ (s.qs j).comp := fun j v hj => hnr j (comp_sub (I.que j) (List.mem_map.2 ⟨_, hj, rfl⟩))
  have hon : (⟨d, w, b.off, b.size, buf⟩ : Req).On b := ⟨hd, rfl, rfl⟩
  have hmr : s.moved r = [] := I.non r hnone
  have hlr : ∀ e ∈ h.log, e.r ≠ r := by
    intro e he e'
    obtain ⟨_, q, h1, _⟩ := I.log e he
    rw [e', hnone] at h1; cases h1
  constructor
  · exact I.mgr
  · exact upd_cases (P := fun _ a => Aio.Inv a) (Aio.inv_step (I.que _) hnc hs) I.que
  · intro j x hx
    have hx : x ∈ (upd s.qs (qid d) t j).subm := hx
    by_cases hj : j = qid d
    · subst hj
      rw [upd_same, k3] at hx
      rcases List.mem_append.1 hx with hx | hx
      · obtain ⟨q, h1, h2⟩ := I.sub _ x hx
        have hxr : x ≠ r := fun e => hnr _ (e ▸ hx)
        exact ⟨q, by show upd _ _ _ x = _; rw [upd_other _ _ hxr]; exact h1, h2⟩
      · have hx : x = r := by simpa using hx
        subst hx
        exact ⟨⟨d, w, b.off, b.size, buf⟩, upd_same _ _ _, rfl⟩
    · rw [upd_other _ _ hj] at hx
      obtain ⟨q, h1, h2⟩ := I.sub _ x hx
      have hxr : x ≠ r := fun e => hnr _ (e ▸ hx)
      exact ⟨q, by show upd _ _ _ x = _; rw [upd_other _ _ hxr]; exact h1, h2⟩
  · intro x q hq
    show x ∈ (upd s.qs (qid d) t (qid q.disk)).subm
    by_cases hx : x = r
    · subst hx
      rw [hnew q hq, upd_same, k3]; simp
    · have hm := I.req x q (hold x q hx hq)
      revert hm
      exact upd_cases (P := fun j (a : Aio.St) => x ∈ (s.qs j).subm → x ∈ a.subm) (fun h => by rw [k3]; simp [h]) (fun _ h => h) (qid q.disk)
  · intro x hx
    have hx : upd _ _ _ x = none := hx
    by_cases e : x = r
    · subst e; exact hmr
    · rw [upd_other _ _ e] at hx; exact I.non x hx
  · intro x q hq hu
    by_cases e : x = r
    · subst e; exact hmr
    · exact I.unt x q (hold x q e hq) (hU _ x hu)
  · intro x q hq hu hk
    by_cases e : x = r
    · subst e
      exfalso
      have h1 := hR _ x hu
      have hin := I.que (qid q.disk)
      have hc := hin.cons x
      have h0 : (s.qs (qid q.disk)).subm.count x = 0 := List.count_eq_zero.2 (hnr _)
      simp only [Aio.places] at hc
      rcases h1 with h1 | h1 | h1
      · have := List.count_pos_iff.2 h1; omega
      · have := List.count_pos_iff.2 h1; omega
      · exact hnrc _ _ h1
    · exact I.full x q (hold x q e hq) (hR _ x hu) (by have hk : x ∉ (upd s.qs (qid d) t (qid q.disk)).kerr := hk; rwa [hK] at hk)
  · intro x q hx hq
    by_cases e : x = r
    · subst e; rw [hnew q hq]; exact hlen
    · exact I.buf x q (hp x e hx) (hold x q e hq)
  · intro x q y q' hx hy h1 h2 h3 h4
    by_cases ex : x = r
    · by_cases ey : y = r
      · rw [ex, ey]
      · subst ex
        have := hnew q h1
        subst this
        obtain ⟨_, hw'⟩ := hbufs y q' (hp y ey hy) (hold y q' ey h2) h4.symm
        simp only at h3
        rw [hw'] at h3; cases h3
    · by_cases ey : y = r
      · subst ey
        have := hnew q' h2
        subst this
        obtain ⟨hw', _⟩ := hbufs x q (hp x ex hx) (hold x q ex h1) h4
        rw [hw'] at h3; cases h3
      · exact I.own x q y q' (hp x ex hx) (hp y ey hy) (hold x q ex h1) (hold y q' ey h2) h3 h4
  · intro x q hx hq
    by_cases e : x = r
    · subst e; rw [hnew q hq]; exact ⟨b, hb, hon⟩
    · exact I.on x q (hp x e hx) (hold x q e hq)
  · intro x q y q' c hx hy h1 h2 h3 h4 h5 h6
    by_cases ex : x = r
    · by_cases ey : y = r
      · rw [ex, ey]
      · subst ex
        have := hnew q h1
        subst this
        have ecb := I.same h4 hb h5 hon
        subst ecb
        obtain ⟨_, hw'⟩ := hw y q' (hp y ey hy) (hold y q' ey h2) h6
        simp only at h3
        rw [hw'] at h3; cases h3
    · by_cases ey : y = r
      · subst ey
        have := hnew q' h2
        subst this
        have ecb := I.same h4 hb h6 hon
        subst ecb
        obtain ⟨hw', _⟩ := hw x q (hp x ex hx) (hold x q ex h1) h5
        rw [hw'] at h3; cases h3
      · exact I.ord x q y q' c (hp x ex hx) (hp y ey hy) (hold x q ex h1) (hold y q' ey h2) h3 h4 h5 h6
  · intro x q hx hq
    by_cases e : x = r
    · subst e
      intro j hj
      have hj : j ∈ s.moved x := hj
      rw [hmr] at hj; cases hj
    · exact I.mov x q (hp x e hx) (hold x q e hq)
  · -- the log
    have hmain : ∀ e ∈ h.log, e.b ∈ s.m.live ∧ ∃ q, upd s.reqs r (some (⟨d, w, b.off, b.size, buf⟩ : Req)) e.r = some q ∧ q.write = true ∧ q.On e.b ∧
        e.data.length = q.size ∧ (Pending qid { s with reqs := upd s.reqs r (some ⟨d, w, b.off, b.size, buf⟩), qs := upd s.qs (qid d) t } e.r → s.mem q.buf = e.data) := by
      intro e he
      obtain ⟨h1, q, h2, h3, h4, h5, h6⟩ := I.log e he
      exact ⟨h1, q, by rw [upd_other _ _ (hlr e he)]; exact h2, h3, h4, h5, fun hx => h6 (hp _ (hlr e he) hx)⟩
    cases w with
    | false => exact hmain
    | true =>
      intro e he
      have he : e ∈ (⟨r, b, s.mem buf⟩ : Wrote) :: h.log := he
      rcases List.mem_cons.1 he with he | he
      · subst he
        exact ⟨hb, ⟨d, true, b.off, b.size, buf⟩, upd_same _ _ _, rfl, hon, hlen, fun _ => rfl⟩
      · exact hmain e he
  · intro x q c hx h1 h2 h3 h4
    by_cases ex : x = r
    · subst ex
      have := hnew q h1
      subst this
      simp only at h2
      subst h2
      have ecb := I.same h3 hb h4 hon
      subst ecb
      refine ⟨⟨x, c, s.mem buf⟩, h.of c, ?_, rfl⟩
      show Hist.of { h with log := _ :: h.log } c = _
      rw [of_cons, if_pos rfl]
    · have hx' := hp x ex hx
      have hq' := hold x q ex h1
      have hI := I.head x q c hx' hq' h2 h3 h4
      cases w with
      | false => exact hI
      | true =>
        show ∃ e L, Hist.of { h with log := (⟨r, b, s.mem buf⟩ : Wrote) :: h.log } c = e :: L ∧ e.r = x
        rw [of_cons]
        by_cases ebc : b = c
        · subst ebc
          have := (hw x q hx' hq' h4).2
          cases this
        · rw [if_neg ebc]; exact hI
  · intro x q c hx h1 h2 h3 h4
    by_cases ex : x = r
    · subst ex
      have := hnew q h1
      subst this
      simp only at h2
      subst h2
      have ecb := I.same h3 hb h4 hon
      subst ecb
      show upd h.seen x (h.of c) x = h.of c
      rw [upd_same]
    · have hx' := hp x ex hx
      have hq' := hold x q ex h1
      have hI := I.rds x q c hx' hq' h2 h3 h4
      cases w with
      | false =>
        show upd h.seen r (h.of b) x = h.of c
        rw [upd_other _ _ ex]; exact hI
      | true =>
        show h.seen x = Hist.of { h with log := (⟨r, b, s.mem buf⟩ : Wrote) :: h.log } c
        rw [of_cons]
        by_cases ebc : b = c
        · subst ebc
          have := (hw x q hx' hq' h4).2
          cases this
        · rw [if_neg ebc]; exact hI
  · intro c hc d' hd' L1 e L2 hL hL1 hcm hk
    replace hcm : (e.r, true) ∈ (upd s.qs (qid d) t (qid d')).comp := hcm
    replace hk : e.r ∉ (upd s.qs (qid d) t (qid d')).kerr := hk
    rw [hC] at hcm
    rw [hK] at hk
    have hBe : ∀ e', Begun qid s d' e' → Begun qid { s with reqs := upd s.reqs r (some ⟨d, w, b.off, b.size, buf⟩), qs := upd s.qs (qid d) t } d' e' := by
      intro e' he'
      rcases he' with h | h
      · exact .inl h
      · refine .inr ?_
        show _ ∈ (upd s.qs (qid d) t (qid d')).comp
        rw [hC]; exact h
    cases w with
    | false => exact I.val c hc d' hd' L1 e L2 hL (fun e' he' hB => hL1 e' he' (hBe e' hB)) hcm hk
    | true =>
      have hL : Hist.of { h with log := (⟨r, b, s.mem buf⟩ : Wrote) :: h.log } c = L1 ++ e :: L2 := hL
      rw [of_cons] at hL
      by_cases ebc : b = c
      · subst ebc
        rw [if_pos rfl] at hL
        cases L1 with
        | nil =>
          simp only [List.nil_append] at hL
          injection hL with hL _
          rw [← hL] at hcm
          exact absurd hcm (hnrc _ _)
        | cons a A =>
          simp only [List.cons_append] at hL
          injection hL with _ hL
          exact I.val b hc d' hd' A e L2 hL (fun e' he' hB => hL1 e' (by simp [he']) (hBe e' hB)) hcm hk
      · rw [if_neg ebc] at hL
        exact I.val c hc d' hd' L1 e L2 hL (fun e' he' hB => hL1 e' he' (hBe e' hB)) hcm hk

/-! ### The kernel transfers a byte -/

theorem getD_set (l : List UInt8) (j k : Nat) (v : UInt8) (hj : j < l.length) : (l.set j v).getD k 0 = if k = j then v else l.getD k 0 := by
  by_cases h : k = j
  · subst h
    simp [List.getD, hj]
  · simp [List.getD, List.getElem?_set_ne (Ne.symm h), h]

theorem Inv.kernel {s : St} {h : Hist} (I : Inv qid cfgs s h) {i r j : Nat} {q : Req} (hq : s.reqs r = some q) (hi : r ∈ (s.qs i).infl) (hj : j < q.size) :
    Inv qid cfgs { s.byte q j with moved := upd s.moved r (j :: s.moved r) } h := by
  obtain ⟨q0, e0, e1⟩ := I.sub i r (infl_sub (I.que i) hi)
  rw [hq] at e0; injection e0 with e0; subst e0; subst e1
  obtain ⟨hnu, hnr, hnc⟩ := Aio.infl_only (I.que _) hi
  have hpr : Pending qid s r := ⟨q, hq, hnc⟩
  obtain ⟨b, hb, hon⟩ := I.on r q hpr hq
  have hmm : ∀ x y, y ∈ s.moved x → y ∈ upd s.moved r (j :: s.moved r) x := by
    intro x y hy
    by_cases e : x = r
    · subst e; rw [upd_same]; simp [hy]
    · rw [upd_other _ _ e]; exact hy
  have hmne : ∀ x, s.moved x ≠ [] → upd s.moved r (j :: s.moved r) x ≠ [] := by
    intro x hx e
    apply hx
    by_cases e' : x = r
    · subst e'; rw [upd_same] at e; cases e
    · rwa [upd_other _ _ e'] at e
  have hqs : (s.byte q j).qs = s.qs := by unfold St.byte; split <;> rfl
  have hrq : (s.byte q j).reqs = s.reqs := by unfold St.byte; split <;> rfl
  have hm : (s.byte q j).m = s.m := by unfold St.byte; split <;> rfl
  have hpe : ∀ x, Pending qid { s.byte q j with moved := upd s.moved r (j :: s.moved r) } x → Pending qid s x := by
    rintro x ⟨q', h1, h2⟩
    simp only [hqs, hrq] at h1 h2
    exact ⟨q', h1, h2⟩
  -- memory and files
  have hmem : ∀ x q', Pending qid s x → s.reqs x = some q' → x ≠ r → (s.byte q j).mem q'.buf = s.mem q'.buf := by
    intro x q' hx hq' hxr
    unfold St.byte
    split
    · rfl
    · rename_i hwr
      have hwr : q.write = false := by simpa using hwr
      refine upd_other _ _ (fun e => hxr ?_)
      exact (I.own r q x q' hpr hx hq hq' hwr e.symm).symm
  have hfile : ∀ c ∈ s.m.live, ∀ d, c.storage = .managed d → (q.write = true → c ≠ b) → ∀ k, k < c.size →
      ((s.byte q j).files d).byte (c.off + k) = (s.files d).byte (c.off + k) := by
    intro c hc d hd hcb k hk
    unfold St.byte
    split
    · rename_i hwr
      by_cases e : d = q.disk
      · subst e
        have hap := live_apart I.mgr hc hb (hcb hwr) (by rw [hd, hon.1])
        have o1 := hon.2.1; have o2 := hon.2.2
        simp only [upd_same]
        rw [if_neg]
        unfold Apart at hap
        omega
      · simp only [upd_other _ _ e]
    · rfl
  have hbuflen : (s.mem q.buf).length = q.size := I.buf r q hpr hq
  constructor
  · simp only [hm]; exact I.mgr
  · simp only [hqs]; exact I.que
  · simp only [hqs, hrq]; exact I.sub
  · simp only [hqs, hrq]; exact I.req
  · intro x hx
    simp only [hrq] at hx
    have : x ≠ r := by intro e; subst e; rw [hq] at hx; cases hx
    show upd s.moved r _ x = []
    rw [upd_other _ _ this]; exact I.non x hx
  · intro x q' hx hu
    simp only [hrq, hqs] at hx hu
    show upd s.moved r _ x = []
    have : x ≠ r := by intro e; subst e; rw [hq] at hx; injection hx with hx; subst hx; exact hnu hu
    rw [upd_other _ _ this]; exact I.unt x q' hx hu
  · intro x q' hx hu hk
    simp only [hrq, hqs] at hx hu hk
    exact fun k hk' => hmm x k (I.full x q' hx hu hk k hk')
  · intro x q' hx hq'
    simp only [hrq] at hq'
    by_cases e : x = r
    · subst e
      rw [hq] at hq'; injection hq' with hq'; subst hq'
      unfold St.byte
      split
      · exact hbuflen
      · simp only [upd_same, List.length_set]; exact hbuflen
    · show ((s.byte q j).mem q'.buf).length = _
      rw [hmem x q' (hpe x hx) hq' e]; exact I.buf x q' (hpe x hx) hq'
  · intro x q1 y q2 hx hy
    simp only [hrq]
    exact I.own x q1 y q2 (hpe x hx) (hpe y hy)
  · intro x q' hx hq'
    simp only [hrq] at hq'
    simp only [hm]
    exact I.on x q' (hpe x hx) hq'
  · intro x q1 y q2 c hx hy
    simp only [hrq, hm]
    exact I.ord x q1 y q2 c (hpe x hx) (hpe y hy)
  · intro x q' hx hq' k hk
    simp only [hrq] at hq'
    have hk : k ∈ upd s.moved r (j :: s.moved r) x := hk
    show k < q'.size ∧ ((s.byte q j).mem q'.buf).getD k 0 = ((s.byte q j).files q'.disk).byte (q'.off + k)
    by_cases e : x = r
    · subst e
      rw [hq] at hq'; injection hq' with hq'; subst hq'
      rw [upd_same] at hk
      have hks : k < q.size ∧ (k ≠ j → (s.mem q.buf).getD k 0 = (s.files q.disk).byte (q.off + k)) := by
        rcases List.mem_cons.1 hk with hk | hk
        · subst hk; exact ⟨hj, fun h => absurd rfl h⟩
        · obtain ⟨m1, m2⟩ := I.mov x q hpr hq k hk
          exact ⟨m1, fun _ => m2⟩
      refine ⟨hks.1, ?_⟩
      unfold St.byte
      split
      · simp only [upd_same]
        by_cases ekj : k = j
        · subst ekj; rw [if_pos rfl]
        · rw [if_neg (by omega)]; exact hks.2 ekj
      · simp only [upd_same]
        rw [getD_set _ _ _ _ (by omega)]
        by_cases ekj : k = j
        · subst ekj; rw [if_pos rfl]
        · rw [if_neg ekj]; exact hks.2 ekj
    · rw [upd_other _ _ e] at hk
      have hx' := hpe x hx
      obtain ⟨m1, m2⟩ := I.mov x q' hx' hq' k hk
      refine ⟨m1, ?_⟩
      rw [hmem x q' hx' hq' e, m2]
      obtain ⟨c, hc, honc⟩ := I.on x q' hx' hq'
      have := hfile c hc q'.disk honc.1 (fun hwr ecb => by subst ecb; exact e (I.ord r q x q' c hpr hx' hq hq' hwr hc hon honc).symm) k (by rw [honc.2.2]; exact m1)
      rw [honc.2.1] at this
      exact this.symm
  · intro e he
    obtain ⟨h1, q', h2, h3, h4, h5, h6⟩ := I.log e he
    refine ⟨by simp only [hm]; exact h1, q', by simp only [hrq]; exact h2, h3, h4, h5, fun hx => ?_⟩
    have hx' := hpe _ hx
    show (s.byte q j).mem q'.buf = _
    rw [← h6 hx']
    by_cases er : e.r = r
    · rw [er] at h2
      rw [hq] at h2; injection h2 with h2; subst h2
      unfold St.byte
      rw [if_pos h3]
    · exact hmem e.r q' hx' h2 er
  · intro x q' c hx
    simp only [hrq, hm]
    exact I.head x q' c (hpe x hx)
  · intro x q' c hx
    simp only [hrq, hm]
    exact I.rds x q' c (hpe x hx)
  · intro c hc d hd L1 e L2 hL hL1 hcm hk k hkc
    simp only [hm] at hc
    simp only [hqs] at hcm hk
    have hL1' : ∀ e' ∈ L1, ¬ Begun qid s d e' := by
      intro e' he' hB
      refine hL1 e' he' ?_
      rcases hB with hB | hB
      · exact .inl (hmne _ hB)
      · refine .inr ?_
        show _ ∈ ((s.byte q j).qs (qid d)).comp
        rw [hqs]; exact hB
    have hv := I.val c hc d hd L1 e L2 hL hL1' hcm hk k hkc
    refine (hfile c hc d hd (fun hwr ecb => ?_) k hkc).trans hv
    subst ecb
    obtain ⟨e1, L, p1, p2⟩ := I.head r q c hpr hq hwr hc hon
    rw [hL] at p1
    cases L1 with
    | nil =>
      simp only [List.nil_append] at p1
      injection p1 with p1 _
      have hdq : q.disk = d := by
        have := hon.1; rw [hd] at this; injection this with this; exact this.symm
      rw [p1, p2] at hcm
      rw [hdq] at hnc
      exact hnc (List.mem_map.2 ⟨_, hcm, rfl⟩)
    | cons a A =>
      simp only [List.cons_append] at p1
      injection p1 with p1 _
      refine hL1 a (by simp) (.inl ?_)
      show upd s.moved r _ a.r ≠ []
      rw [p1, p2, upd_same]
      simp

theorem Inv.next {s s' : St} {h : Hist} (I : Inv qid cfgs s h) {op : Op} (ha : Allowed qid s op) (hw : Waits qid s op) (hn : NoConfirm op)
    (hs : step qid s op = some s') : Inv qid cfgs s' (remember h s op) := by
  have hemp : ∀ (t : St), t.honest {} = true := fun t => rfl
  cases op with
  | mgr op =>
    simp only [step] at hs
    injection hs with hs; subst hs
    exact I.alloc ha hw
  | fill buf data =>
    simp only [step] at hs
    injection hs with hs; subst hs
    exact I.fill ha
  | io r w b buf =>
    simp only [step] at hs
    split at hs
    · rename_i d hd
      obtain ⟨t, h1, h2⟩ := queue_some hs
      subst h2
      exact I.io hd ha hw h1
    · cases hs
  | cancel r ok =>
    simp only [step] at hs
    split at hs
    · rename_i q hq
      split at hs
      · obtain ⟨t, h1, h2⟩ := queue_some hs
        subst h2
        exact I.quiet (fun _ h => by cases h) rfl (hemp _) h1
      · obtain ⟨t, h1, h2⟩ := queue_some hs
        subst h2
        have hn : ok = false := hn
        subst hn
        exact I.quiet (fun _ h => by cases h) rfl (hemp _) h1
    · cases hs
  | kernel i r j =>
    simp only [step] at hs
    split at hs
    · rename_i q hq
      split at hs
      · rename_i hc
        injection hs with hs; subst hs
        exact I.kernel hq hc.1 hc.2
      · cases hs
    · cases hs
  | run i op =>
    have hgo : ∀ (t : St), s.queue i op = some t → Aio.NoConfirm (s.qs i) op → op.adds = [] → s.honest op.kernel = true → Inv qid cfgs t h := by
      intro t h1 h2 h3 h4
      obtain ⟨u, g1, g2⟩ := queue_some h1
      subst g2
      exact I.quiet h2 h3 h4 g1
    cases op with
    | add r => simp [step] at hs
    | cancelW r => simp [step] at hs
    | cancelK r ok => simp [step] at hs
    | post o =>
      simp only [step] at hs
      split at hs
      · rename_i ho
        exact hgo s' hs (fun _ h => by cases h) rfl ho
      · cases hs
    | wait o =>
      simp only [step] at hs
      split at hs
      · rename_i ho
        exact hgo s' hs (fun _ h => by cases h) rfl ho
      · cases hs
    | addSig => exact hgo s' hs (fun _ h => by cases h) rfl (hemp _)
    | cancelComp r => exact hgo s' hs (fun _ h => by cases h) rfl (hemp _)
    | cancelDone => exact hgo s' hs (fun _ h => by cases h) rfl (hemp _)
    | kstep k => exact hgo s' hs (fun _ h => by cases h) rfl (hemp _)
    | stop => exact hgo s' hs (fun _ h => by cases h) rfl (hemp _)

theorem life_inv {s : St} {h : Hist} (hl : Life qid cfgs (fun s op => Waits qid s op ∧ NoConfirm op) s h) : Inv qid cfgs s h := by
  induction hl with
  | start hm he => exact inv_init hm he
  | next op _ ha hp hs ih => exact ih.next ha hp.1 hp.2 hs

/-! ### What is read and what the file holds -/

theorem canceled_mem {q : Aio.St} {x : Nat} : x ∈ canceled q ↔ (x, false) ∈ q.comp := by
  unfold canceled
  simp only [List.mem_map, List.mem_filter]
  constructor
  · rintro ⟨⟨y, v⟩, ⟨h1, h2⟩, rfl⟩
    cases v
    · exact h1
    · cases h2
  · intro h
    exact ⟨_, ⟨h, rfl⟩, rfl⟩

theorem last_split {l : List Nat} {L : List Wrote} {e : Wrote} (h : Store.last l L = some e) :
    ∃ L1 L2, L = L1 ++ e :: L2 ∧ e.r ∉ l ∧ ∀ e' ∈ L1, e'.r ∈ l := by
  unfold Store.last at h
  obtain ⟨h1, L1, L2, h2, h3⟩ := List.find?_eq_some_iff_append.1 h
  refine ⟨L1, L2, h2, by simpa using h1, fun e' he' => ?_⟩
  have := h3 e' he'
  simpa using this

theorem Inv.not_begun {s : St} {h : Hist} (I : Inv qid cfgs s h) {b : Mgr.Bid} {d : Nat} (hd : b.storage = .managed d) {e : Wrote} (he : e ∈ h.of b)
    (hc : e.r ∈ canceled (s.qs (qid d))) : ¬ Begun qid s d e := by
  have hm := List.mem_filter.1 he
  have heb : e.b = b := by simpa using hm.2
  obtain ⟨_, q, h1, _, h3, _⟩ := I.log e hm.1
  have hdq : q.disk = d := by
    have := h3.1; rw [heb, hd] at this; injection this with this; exact this.symm
  have hc := canceled_mem.1 hc
  rintro (hB | hB)
  · exact hB (I.unt e.r q h1 (by rw [hdq]; exact .inr (.inr (.inr (.inr hc)))))
  · exact comp_once (I.que _) hB hc

theorem Inv.file {s : St} {h : Hist} (I : Inv qid cfgs s h) {b : Mgr.Bid} {d : Nat} (hb : b ∈ s.m.live) (hd : b.storage = .managed d) {e : Wrote}
    (hl : Store.last (canceled (s.qs (qid d))) (h.of b) = some e) (hc : (e.r, true) ∈ (s.qs (qid d)).comp) (hk : e.r ∉ (s.qs (qid d)).kerr) :
    ∀ j, j < b.size → (s.files d).byte (b.off + j) = e.data.getD j 0 := by
  obtain ⟨L1, L2, h1, _, h3⟩ := last_split hl
  exact I.val b hb d hd L1 e L2 h1 (fun e' he' => I.not_begun hd (by rw [h1]; simp [he']) (h3 e' he')) hc hk

theorem same_data {s s' : St} {op : Op} (hs : step qid s op = some s') (hq : s'.qs ≠ s.qs) : s'.mem = s.mem ∧ s'.moved = s.moved := by
  have hg : ∀ (t : St) i o, s.queue i o = some t → t.mem = s.mem ∧ t.moved = s.moved := by
    intro t i o h
    obtain ⟨u, _, g2⟩ := queue_some h
    subst g2; exact ⟨rfl, rfl⟩
  cases op with
  | mgr op => simp only [step] at hs; injection hs with hs; subst hs; exact absurd rfl hq
  | fill buf data => simp only [step] at hs; injection hs with hs; subst hs; exact absurd rfl hq
  | io r w b buf =>
    simp only [step] at hs
    split at hs
    · obtain ⟨t, _, h2⟩ := queue_some hs
      subst h2; exact ⟨rfl, rfl⟩
    · cases hs
  | cancel r ok =>
    simp only [step] at hs
    split at hs
    · split at hs
      · exact hg _ _ _ hs
      · exact hg _ _ _ hs
    · cases hs
  | kernel i r j =>
    simp only [step] at hs
    split at hs
    · split at hs
      · injection hs with hs; subst hs
        refine absurd ?_ hq
        show (s.byte _ j).qs = s.qs
        unfold St.byte
        split <;> rfl
      · cases hs
    · cases hs
  | run i op =>
    cases op with
    | add r => simp [step] at hs
    | cancelW r => simp [step] at hs
    | cancelK r ok => simp [step] at hs
    | post o =>
      simp only [step] at hs
      split at hs
      · exact hg _ _ _ hs
      · cases hs
    | wait o =>
      simp only [step] at hs
      split at hs
      · exact hg _ _ _ hs
      · cases hs
    | addSig => exact hg _ _ _ hs
    | cancelComp r => exact hg _ _ _ hs
    | cancelDone => exact hg _ _ _ hs
    | kstep k => exact hg _ _ _ hs
    | stop => exact hg _ _ _ hs

theorem reqs_mono {s s' : St} {h : Hist} {op : Op} (_I : Inv qid cfgs s h) (ha : Allowed qid s op) (hs : step qid s op = some s') {x : Nat} {q : Req} (hq : s.reqs x = some q) :
    s'.reqs x = some q := by
  have hg : ∀ (t : St) i o, s.queue i o = some t → t.reqs x = some q := by
    intro t i o h
    obtain ⟨u, _, g2⟩ := queue_some h
    subst g2; exact hq
  cases op with
  | mgr op => simp only [step] at hs; injection hs with hs; subst hs; exact hq
  | fill buf data => simp only [step] at hs; injection hs with hs; subst hs; exact hq
  | io r w b buf =>
    simp only [step] at hs
    split at hs
    · obtain ⟨t, _, h2⟩ := queue_some hs
      subst h2
      have : x ≠ r := by rintro rfl; rw [ha.1] at hq; cases hq
      show upd _ _ _ x = _
      rw [upd_other _ _ this]; exact hq
    · cases hs
  | cancel r ok =>
    simp only [step] at hs
    split at hs
    · split at hs
      · exact hg _ _ _ hs
      · exact hg _ _ _ hs
    · cases hs
  | kernel i r j =>
    simp only [step] at hs
    split at hs
    · split at hs
      · injection hs with hs; subst hs
        show (s.byte _ j).reqs x = _
        unfold St.byte
        split <;> exact hq
      · cases hs
    · cases hs
  | run i op =>
    cases op with
    | add r => simp [step] at hs
    | cancelW r => simp [step] at hs
    | cancelK r ok => simp [step] at hs
    | post o =>
      simp only [step] at hs
      split at hs
      · exact hg _ _ _ hs
      · cases hs
    | wait o =>
      simp only [step] at hs
      split at hs
      · exact hg _ _ _ hs
      · cases hs
    | addSig => exact hg _ _ _ hs
    | cancelComp r => exact hg _ _ _ hs
    | cancelDone => exact hg _ _ _ hs
    | kstep k => exact hg _ _ _ hs
    | stop => exact hg _ _ _ hs

/-- A read that completes has the data of the last write of the block. -/
theorem Inv.read {s s' : St} {h : Hist} (I : Inv qid cfgs s h) {op : Op} (ha : Allowed qid s op) (hw : Waits qid s op) (hn : NoConfirm op)
    (hs : step qid s op = some s') {r : Nat} {q : Req} {e : Wrote} (hp : Pending qid s r) (hq : s.reqs r = some q) (hr : q.write = false)
    (hc : (r, true) ∈ (s'.qs (qid q.disk)).comp) (hk : r ∉ (s'.qs (qid q.disk)).kerr) (hl : Store.last (canceled (s.qs (qid q.disk))) (h.seen r) = some e)
    (hke : e.r ∉ (s.qs (qid q.disk)).kerr) : s'.mem q.buf = e.data := by
  have I' := I.next ha hw hn hs
  have hne : s'.qs ≠ s.qs := by
    intro he
    obtain ⟨q1, h1, h2⟩ := hp
    rw [hq] at h1; injection h1 with h1; subst h1
    rw [he] at hc
    exact h2 (List.mem_map.2 ⟨_, hc, rfl⟩)
  obtain ⟨hmem, hmov⟩ := same_data hs hne
  have hq' := reqs_mono I ha hs hq
  have hfull := I'.full r q hq' (.inr (.inr hc)) hk
  rw [hmov] at hfull
  obtain ⟨b, hb, hon⟩ := I.on r q hp hq
  have hseen := I.rds r q b hp hq hr hb hon
  rw [hseen] at hl
  have hem : e ∈ h.of b := List.mem_of_find?_eq_some hl
  have hm := List.mem_filter.1 hem
  have heb : e.b = b := by simpa using hm.2
  obtain ⟨_, q1, g1, g2, g3, g4, _⟩ := I.log e hm.1
  rw [heb] at g3
  have hdq : q1.disk = q.disk := by
    have := g3.1; rw [hon.1] at this; injection this with this; exact this.symm
  have hdone : (e.r, true) ∈ (s.qs (qid q.disk)).comp := by
    have h1 : e.r ∈ (s.qs (qid q.disk)).comp.map (·.1) := by
      refine Classical.byContradiction fun hno => ?_
      have hpe : Pending qid s e.r := ⟨q1, g1, by rw [hdq]; exact hno⟩
      have e2 := I.ord e.r q1 r q b hpe hp g1 hq g2 hb g3 hon
      rw [e2, hq] at g1
      injection g1 with g1; subst g1
      rw [hr] at g2; cases g2
    obtain ⟨⟨y, v⟩, h2, h3⟩ := List.mem_map.1 h1
    simp only at h3
    rw [← h3]
    cases v with
    | true => exact h2
    | false =>
      exfalso
      obtain ⟨_, _, _, h4, _⟩ := last_split hl
      exact h4 (canceled_mem.2 (by rw [← h3]; exact h2))
  have hf := I.file hb hon.1 hl hdone hke
  have hlen := I.buf r q hp hq
  rw [hmem]
  have hle : e.data.length = q.size := by
    rw [g4, ← g3.2.2, hon.2.2]
  apply List.ext_getElem
  · rw [hlen, hle]
  intro k h1 h2
  obtain ⟨_, m2⟩ := I.mov r q hp hq k (hfull k (by omega))
  have h3 := hf k (by rw [hon.2.2]; omega)
  rw [hon.2.1, ← m2] at h3
  simpa [List.getD, h1, h2] using h3

end Foxxll.AioStore
