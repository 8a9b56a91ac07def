import Verif.Spec.PoolFailAgree
import Verif.Proofs.Pools
/-
Lemmas for `Verif.Props.PoolFailAgree`.
-/
namespace Foxxll.PoolFail

variable {V : Type}

theorem map_erase' {β γ : Type} [DecidableEq β] [DecidableEq γ] (f : β → γ) (hf : ∀ a b, f a = f b → a = b) (e : β) : ∀ l : List β, (l.map f).erase (f e) = (l.erase e).map f
  | [] => rfl
  | a :: l => by
    rw [List.map_cons, List.erase_cons, List.erase_cons]
    by_cases h : a = e
    · subst h; simp
    · have : f a ≠ f e := fun h' => h (hf _ _ h')
      simp [h, this, map_erase' f hf e l]

theorem wEnt_inj (a b : Pool.WEntry) (h : (⟨a.blk, a.req, a.bid⟩ : WEnt) = ⟨b.blk, b.req, b.bid⟩) : a = b := by
  cases a; cases b; simpa using h

theorem pEnt_inj (a b : Pool.PEntry) (h : (⟨a.bid, a.blk, a.req, a.rd⟩ : PEnt) = ⟨b.bid, b.blk, b.req, b.rd⟩) : a = b := by
  cases a; cases b; simpa using h

theorem erase_w (l : List Pool.WEntry) (e : Pool.WEntry) :
    (l.map fun e => (⟨e.blk, e.req, e.bid⟩ : WEnt)).erase ⟨e.blk, e.req, e.bid⟩ = (l.erase e).map fun e => ⟨e.blk, e.req, e.bid⟩ :=
  map_erase' (fun e : Pool.WEntry => (⟨e.blk, e.req, e.bid⟩ : WEnt)) wEnt_inj e l

theorem erase_p (l : List Pool.PEntry) (e : Pool.PEntry) :
    (l.map fun e => (⟨e.bid, e.blk, e.req, e.rd⟩ : PEnt)).erase ⟨e.bid, e.blk, e.req, e.rd⟩ = (l.erase e).map fun e => ⟨e.bid, e.blk, e.req, e.rd⟩ :=
  map_erase' (fun e : Pool.PEntry => (⟨e.bid, e.blk, e.req, e.rd⟩ : PEnt)) pEnt_inj e l

theorem findP_view (d : List Nat) (s : Pool.St V) (bid : Nat) : findP (view d s) bid = (Pool.findP s bid).map fun e => ⟨e.bid, e.blk, e.req, e.rd⟩ := by
  simp only [findP, view, Pool.findP, List.find?_map]
  rfl

theorem findW_view (d : List Nat) (s : Pool.St V) (bid : Nat) : findW (view d s) bid = (Pool.findW s bid).map fun e => ⟨e.blk, e.req, e.bid⟩ := by
  simp only [findW, view, Pool.findW, List.find?_map]
  rfl

theorem pending_view (d : List Nat) (s : Pool.St V) (r : Nat) : pending (view d s) r = !Pool.isDone s r := by
  simp only [pending, view, Pool.isDone, List.any_map, List.not_all_eq_any_not]
  congr 1
  funext x
  simp [bne]

theorem failed_view (d : List Nat) (s : Pool.St V) (r : Nat) : failed (view d s) r = false := rfl

theorem hint_view (d : List Nat) {s : Pool.St V} (hn : s.pfs = s.pfree.length) (bid : Nat) : hint (view d s) bid true false = .ok (view d (Pool.hint s bid)) := by
  unfold hint Pool.hint
  rw [findP_view]
  cases hp : Pool.findP s bid with
  | some e => simp
  | none =>
    simp only [Option.map_none, Option.isSome_none, Bool.false_eq_true, if_false]
    by_cases h0 : s.pfs = 0
    · rw [if_pos (show (view d s).pfs = 0 from h0), if_neg (by simpa using h0)]
    · rw [if_neg (show ¬ (view d s).pfs = 0 from h0), if_pos h0]
      have hg : (view d s).pfree.getLast? = s.pfree.getLast? := rfl
      rw [hg]
      cases hl : s.pfree.getLast? with
      | none =>
        rw [List.getLast?_eq_none_iff] at hl
        rw [hl] at hn
        exact absurd hn h0
      | some blk =>
        simp only [if_true]
        have hw : findW { view d s with pfs := (view d s).pfs - 1, pfree := (view d s).pfree.dropLast } bid = (Pool.findW s bid).map fun e => ⟨e.blk, e.req, e.bid⟩ :=
          findW_view d s bid
        have hw' : Pool.findW { s with pfs := s.pfs - 1, pfree := s.pfree.dropLast } bid = Pool.findW s bid := rfl
        rw [hw, hw']
        cases Pool.findW s bid with
        | some e => simp [view, erase_w]
        | none => simp [view, submit, Pool.submit]

theorem read_view (d : List Nat) (s : Pool.St V) (blk bid : Nat) (v : V) :
    read (view d s) blk bid true false = .ok (view d (let s' := (Pool.pread { s with uidle := s.uidle.erase blk } blk bid)
      { s'.1 with upend := s'.1.upend ++ [⟨s'.2.1, s'.2.2, bid, v⟩] })) := by
  unfold read Pool.pread
  rw [findP_view]
  have h1 : Pool.findP { s with uidle := s.uidle.erase blk } bid = Pool.findP s bid := rfl
  have h2 : Pool.findW { s with uidle := s.uidle.erase blk } bid = Pool.findW s bid := rfl
  rw [h1, h2]
  cases Pool.findP s bid with
  | some e => simp [view, erase_p]
  | none =>
    simp only [Option.map_none, if_true]
    rw [findW_view]
    cases Pool.findW s bid with
    | some e => simp [view, erase_w]
    | none => simp [view, submit, Pool.submit]

theorem presize_view (d : List Nat) {s : Pool.St V} (hn : s.pfs = s.pfree.length) (n : Nat) : ∃ d', presize (view d s) n n = .ok (view d' (Pool.presize s n)) := by
  have hps : psize (view d s) = Pool.psize s := by simp [psize, Pool.psize, view]
  unfold presize Pool.presize
  rw [hps]
  by_cases h : Pool.psize s < n
  · rw [if_pos h, if_pos h]
    simp only
    rw [if_neg (by omega)]
    exact ⟨d, rfl⟩
  · rw [if_neg h, if_neg h]
    simp only
    have h1 : (view d s).pfs = s.pfs := rfl
    have h2 : (view d s).pfree = s.pfree := rfl
    rw [h1, h2, if_neg (by omega)]
    exact ⟨_, rfl⟩

/-- Removing the first element with a key is removing all, if the keys are distinct. -/
theorem eraseIdx_filter {q : List Pool.Req} (hq : q.Pairwise (fun x y => x.id < y.id)) {r i : Nat} (h : q.findIdx? (fun x => x.id == r) = some i) :
    q.eraseIdx i = q.filter (fun x => x.id != r) := by
  induction q generalizing i with
  | nil => cases h
  | cons a l ih =>
    rw [List.findIdx?_cons] at h
    obtain ⟨h1, h2⟩ := List.pairwise_cons.1 hq
    by_cases ha : a.id = r
    · simp [ha] at h
      subst h
      have : l.filter (fun x => x.id != r) = l := List.filter_eq_self.2 fun x hx => by
        have := h1 x hx
        simp; omega
      simp [ha, this]
    · simp only [beq_iff_eq, ha, if_false] at h
      cases hl : l.findIdx? (fun x => x.id == r) with
      | none => rw [hl] at h; cases h
      | some j =>
        rw [hl] at h
        injection h with h
        subst h
        simp [ha, ih h2 hl]

theorem serve_view (d : List Nat) {ordered : Bool} {s s' : Pool.St V} (hq : s.q.Pairwise (fun x y => x.id < y.id)) {r : Nat} (h : Pool.step ordered s (.serve r) = .ok s') :
    event (view d s) (.finish r) = view d s' ∧ s'.q = s.q.filter (fun x => x.id != r) ∧ s'.pc = s.pc ∧ s'.pbusy = s.pbusy ∧ s'.pfs = s.pfs ∧ s'.pfree = s.pfree := by
  have hf : (view d s).q.filter (fun x => x.1 != r) = (s.q.filter (fun x => x.id != r)).map fun x => (x.id, x.blk) := by
    simp only [view, List.filter_map]
    rfl
  simp only [Pool.step] at h
  split at h
  · cases h
  · rename_i i hi
    have he := eraseIdx_filter hq hi
    split at h
    · split at h
      · cases h
      · split at h
        all_goals
          injection h with h
          subst h
          refine ⟨?_, he, rfl, rfl, rfl, rfl⟩
          simp only [event, hf]
          simp only [view, he]
    · cases h

theorem serves_view (d : List Nat) {ordered : Bool} {s s' : Pool.St V} (hq : s.q.Pairwise (fun x y => x.id < y.id)) {rs : List Nat} (h : Serves ordered s rs s') :
    events (view d s) (rs.map .finish) = view d s' ∧ s'.q.Pairwise (fun x y => x.id < y.id) ∧ s'.pc = s.pc ∧ s'.pbusy = s.pbusy ∧ s'.pfs = s.pfs ∧ s'.pfree = s.pfree := by
  induction h with
  | none => exact ⟨rfl, hq, rfl, rfl, rfl, rfl⟩
  | one r _ hs ih =>
    obtain ⟨h1, h2, h3, h4, h5, h6⟩ := ih
    obtain ⟨g1, g2, g3, g4, g5, g6⟩ := serve_view d h2 hs
    refine ⟨?_, by rw [g2]; exact h2.filter _, g3.trans h3, g4.trans h4, g5.trans h5, g6.trans h6⟩
    rw [List.map_append, events, List.foldl_append]
    show events (events _ _) _ = _
    rw [h1]
    exact g1

/-- `invalidate`, with the requests served before `wait` returns. -/
theorem inval_view (d : List Nat) {ordered : Bool} {s s2 s3 : Pool.St V} (hq : s.q.Pairwise (fun x y => x.id < y.id)) (hn : s.pfs = s.pfree.length) {bid : Nat} {c rehint : Bool} {rs : List Nat}
    (h1 : (Pool.invalBegin s bid c rehint).pc = .inval bid rehint) (hi : s.pc = .idle) (h2 : Serves ordered (Pool.invalBegin s bid c rehint) rs s2) (h3 : Pool.invalEnd s2 bid rehint = .ok s3) :
    ∃ s', invalidate (view d s) bid c (rs.map .finish) = .ok (s', true) ∧ (if rehint then hint s' bid true false else .ok s') = .ok (view d s3) := by
  unfold invalidate
  rw [findP_view]
  unfold Pool.invalBegin at h1 h2
  cases hp : Pool.findP s bid with
  | none =>
    rw [hp] at h1
    simp only [hi] at h1
    cases h1
  | some e =>
    rw [hp] at h2
    simp only at h2
    simp only [Option.map_some]
    have hv : (if e.rd then cancel (view d s) e.req c else view d s) = view d { (if e.rd && c then Pool.cancel s e.req else s) with pc := .inval bid rehint } := by
      cases e.rd <;> cases c <;> simp [cancel, Pool.cancel, view, List.filter_map] <;> rfl
    have hq1 : ({ (if e.rd && c then Pool.cancel s e.req else s) with pc := .inval bid rehint } : Pool.St V).q.Pairwise (fun x y => x.id < y.id) := by
      cases e.rd <;> cases c <;> first | exact hq | exact hq.filter _
    have hpb : ({ (if e.rd && c then Pool.cancel s e.req else s) with pc := .inval bid rehint } : Pool.St V).pbusy = s.pbusy := by
      cases e.rd <;> cases c <;> rfl
    have hpf : ({ (if e.rd && c then Pool.cancel s e.req else s) with pc := .inval bid rehint } : Pool.St V).pfs = s.pfs := by
      cases e.rd <;> cases c <;> rfl
    have hpl : ({ (if e.rd && c then Pool.cancel s e.req else s) with pc := .inval bid rehint } : Pool.St V).pfree = s.pfree := by
      cases e.rd <;> cases c <;> rfl
    obtain ⟨g1, _, g3, g4, g5, g6⟩ := serves_view d hq1 h2
    rw [hv, g1]
    have hf2 : Pool.findP s2 bid = some e := by
      unfold Pool.findP
      rw [g4, hpb]
      exact hp
    unfold Pool.invalEnd at h3
    rw [hf2] at h3
    simp only at h3
    split at h3
    · rename_i hd
      injection h3 with h3
      rw [pending_view, hd, failed_view]
      refine ⟨_, rfl, ?_⟩
      have hs : ({ view d s2 with pfs := (view d s2).pfs + 1, pfree := (view d s2).pfree ++ [e.blk], pbusy := (view d s2).pbusy.erase ⟨e.bid, e.blk, e.req, e.rd⟩ } : St) =
          view d { s2 with pfs := s2.pfs + 1, pfree := s2.pfree ++ [e.blk], pbusy := s2.pbusy.erase e, pc := .idle } := by
        simp only [view, erase_p]
      rw [hs]
      cases rehint with
      | false => simp only [Bool.false_eq_true, if_false] at h3 ⊢; rw [← h3]
      | true =>
        simp only [if_true] at h3 ⊢
        rw [← h3]
        refine hint_view d ?_ bid
        show s2.pfs + 1 = (s2.pfree ++ [e.blk]).length
        rw [List.length_append, g5, g6, hpf, hpl, hn]
        rfl
    · cases h3

theorem wwrite_view (d : List Nat) (s : Pool.St V) (blk bid : Nat) (cw : List Nat) (l : Nat → V) (ha : s.wbusy.any (fun e => e.bid == some bid && e.blk == blk) = false) :
    wwrite (view d s) blk bid cw false = .ok (view d (Pool.wwrite { s with uidle := s.uidle.erase blk, last := l } blk bid cw)) := by
  have h1 : (view d s).wbusy.any (fun e => e.bid == some bid && e.blk == blk) = false := by
    simp only [view, List.any_map]
    exact ha
  unfold wwrite
  rw [h1]
  simp only [Bool.false_eq_true, if_false]
  simp only [Pool.wwrite, dropStale, Pool.dropStale, submit, Pool.submit, view, failed, List.filter_map, List.map_append, List.map_map, List.any_map, List.map_cons, List.map_nil]
  simp only [List.contains_nil, Bool.not_false, Bool.and_true]
  congr 2
  · congr 1
    apply List.map_congr_left
    intro e _
    simp only [Function.comp]
    split <;> rfl

theorem scan_quiet {t : St} (ht : t.err = []) : ∀ (l : List WEnt) (i : Nat),
    scan t [] l i = (t, [], match l.findIdx? (fun e => !pending t e.req) with | none => .none | some k => .found (i + k))
  | [], i => rfl
  | e :: l, i => by
    have hf : failed t e.req = false := by simp [failed, ht]
    unfold scan
    show (if failed t e.req then (t, [], Scan.threw) else if pending t e.req then scan t [] l (i + 1) else (t, [], Scan.found i)) = _
    rw [if_neg (by simp [hf]), List.findIdx?_cons]
    by_cases hp : pending t e.req = true
    · rw [if_pos hp, if_neg (show ¬ (!pending t e.req) = true by simp [hp]), scan_quiet ht l (i + 1)]
      cases l.findIdx? (fun e => !pending t e.req) with
      | none => rfl
      | some k => simp only [Option.map_some]; rw [show i + 1 + k = i + (k + 1) by omega]
    · rw [if_neg hp, if_pos (show (!pending t e.req) = true by simp [hp])]
      rfl

theorem checkBusy_quiet : ∀ (l : List WEnt) (t : St) (pre : List WEnt), t.err = [] →
    checkBusy t [] pre l = .ok { t with wbusy := pre ++ l.filter (fun e => pending t e.req), wfree := t.wfree ++ (l.filter (fun e => !pending t e.req)).map (·.blk) }
  | [], t, pre, _ => by simp [checkBusy]
  | e :: l, t, pre, ht => by
    have hf : failed t e.req = false := by simp [failed, ht]
    unfold checkBusy
    show (if failed t e.req then Out.throw { t with wbusy := pre ++ e :: l } else if pending t e.req then checkBusy t [] (pre ++ [e]) l
      else checkBusy { t with wfree := t.wfree ++ [e.blk] } [] pre l) = _
    rw [if_neg (by simp [hf])]
    by_cases hp : pending t e.req = true
    · rw [if_pos hp, checkBusy_quiet l t (pre ++ [e]) ht]; simp [hp]
    · rw [if_neg hp, checkBusy_quiet l { t with wfree := t.wfree ++ [e.blk] } pre ht]
      have hx : ∀ x : WEnt, pending { t with wfree := t.wfree ++ [e.blk] } x.req = pending t x.req := fun _ => rfl
      simp [hp, hx]

theorem eraseIdx_map' {β γ : Type} (f : β → γ) : ∀ (l : List β) (k : Nat), (l.map f).eraseIdx k = (l.eraseIdx k).map f
  | [], _ => rfl
  | _ :: _, 0 => rfl
  | a :: l, k + 1 => by simp [eraseIdx_map' f l k]

theorem findIdx_view (d : List Nat) (s : Pool.St V) :
    (view d s).wbusy.findIdx? (fun e => !pending (view d s) e.req) = s.wbusy.findIdx? (fun e => Pool.isDone s e.req) := by
  show (s.wbusy.map _).findIdx? _ = _
  rw [List.findIdx?_map]
  congr 1
  funext e
  simp [pending_view]

/-- `steal` when nothing happens during the call. -/
theorem wsteal_view (d : List Nat) (s : Pool.St V) :
    wsteal (view d s) [] = match Pool.wsteal s (s.wbusy.findIdx? fun e => Pool.isDone s e.req) ((s.wbusy.map (·.req)).filter (Pool.isDone s)) with
      | .ok (s', p) => .ok (view d s', p)
      | .blocked => .blocked
      | .assertFail => .assertFail
      | .die => .die := by
  have hw : wsize (view d s) = Pool.wsize s := by simp [wsize, Pool.wsize, view]
  unfold wsteal Pool.wsteal
  rw [hw]
  by_cases h0 : Pool.wsize s = 0
  · simp [h0]
  · rw [if_neg h0, if_neg h0]
    have hg : (view d s).wfree = s.wfree := rfl
    rw [hg]
    cases hl : s.wfree.getLast? with
    | some p => rfl
    | none =>
      simp only
      have hwa : waitAny (view d s) [] = (view d s, [], match s.wbusy.findIdx? (fun e => Pool.isDone s e.req) with | none => .none | some k => .found k) := by
        unfold waitAny
        rw [scan_quiet rfl, findIdx_view]
        cases hi : s.wbusy.findIdx? (fun e => Pool.isDone s e.req) with
        | some k => simp
        | none =>
          simp only [List.headD_nil, events, List.foldl_nil, List.tail_nil]
          rw [scan_quiet rfl, findIdx_view, hi]
      rw [hwa]
      cases hi : s.wbusy.findIdx? (fun e => Pool.isDone s e.req) with
      | none => rfl
      | some k =>
        obtain ⟨hk, hd, _⟩ := List.findIdx?_eq_some_iff_getElem.1 hi
        have he : s.wbusy[k]? = some s.wbusy[k] := List.getElem?_eq_getElem hk
        have he' : (view d s).wbusy[k]? = some ⟨s.wbusy[k].blk, s.wbusy[k].req, s.wbusy[k].bid⟩ := by
          simp [view, he]
        have hall : ((s.wbusy.map (·.req)).filter (Pool.isDone s)).all (Pool.isDone s) = true := by simp
        simp only [he, he', hd, hall, Bool.and_self, if_true]
        rw [checkBusy_quiet _ _ _ rfl]
        have hc : ∀ x ∈ s.wbusy.eraseIdx k, ((s.wbusy.map (·.req)).filter (Pool.isDone s)).contains x.req = Pool.isDone s x.req := by
          intro x hx
          have hm := List.mem_of_mem_eraseIdx hx
          cases hdx : Pool.isDone s x.req with
          | true =>
            rw [List.contains_iff_mem]
            exact List.mem_filter.2 ⟨List.mem_map.2 ⟨x, hm, rfl⟩, hdx⟩
          | false =>
            rw [Bool.eq_false_iff]
            intro h
            rw [List.contains_iff_mem] at h
            have := (List.mem_filter.1 h).2
            rw [hdx] at this
            cases this
        have f1 : (s.wbusy.eraseIdx k).filter (fun x => !((s.wbusy.map (·.req)).filter (Pool.isDone s)).contains x.req) = (s.wbusy.eraseIdx k).filter fun x => !Pool.isDone s x.req :=
          List.filter_congr fun x hx => by rw [hc x hx]
        have f2 : (s.wbusy.eraseIdx k).filter (fun x => ((s.wbusy.map (·.req)).filter (Pool.isDone s)).contains x.req) = (s.wbusy.eraseIdx k).filter fun x => Pool.isDone s x.req :=
          List.filter_congr fun x hx => by rw [hc x hx]
        have g1 : ((view d s).wbusy.eraseIdx k).filter (fun e => pending (view d s) e.req) = ((s.wbusy.eraseIdx k).filter fun x => !Pool.isDone s x.req).map fun e => ⟨e.blk, e.req, e.bid⟩ := by
          simp only [pending_view]
          simp only [view, eraseIdx_map', List.filter_map]
          rfl
        have g2 : (((view d s).wbusy.eraseIdx k).filter (fun e => !pending (view d s) e.req)).map (·.blk) = ((s.wbusy.eraseIdx k).filter fun x => Pool.isDone s x.req).map (·.blk) := by
          simp only [pending_view, Bool.not_not]
          simp only [view, eraseIdx_map', List.filter_map, List.map_map]
          rfl
        simp only [f1, f2, g1, g2, List.nil_append]
        rfl

end Foxxll.PoolFail
