/-
The pools of PoolMem with enough memory do what the pools of C13-C19 do.
-/
import Verif.Spec.PoolAgree

namespace Foxxll.PoolMem

variable {V : Type}

theorem erase_find {α : Type} [DecidableEq α] (f : α → Bool) {x : α} : ∀ {l : List α}, l.find? f = some x → l.erase x = l.eraseP f
  | [], h => nomatch h
  | y :: l, h => by
    by_cases hf : f y = true
    · rw [List.find?_cons_of_pos hf] at h
      injection h with h
      subst h
      rw [List.eraseP_cons_of_pos hf, List.erase_cons_head]
    · rw [List.find?_cons_of_neg hf] at h
      have hne : y ≠ x := fun e => hf (by rw [e]; exact List.find?_some h)
      rw [List.eraseP_cons_of_neg hf, List.erase_cons_tail (by simpa using hne), erase_find f h]

theorem find_map {α β : Type} (g : α → β) (f : β → Bool) (f' : α → Bool) (h : ∀ x, f (g x) = f' x) (l : List α) :
    (l.map g).find? f = (l.find? f').map g ∧ (l.map g).eraseP f = (l.eraseP f').map g := by
  have e : f ∘ g = f' := funext h
  rw [List.find?_map, List.eraseP_map, e]
  exact ⟨rfl, rfl⟩

theorem Agree.findW {s : Pool.St V} {p : Pool} {e : Env} (h : Agree s p e) (bid : Nat) : findW p bid = (Pool.findW s bid).map cw := by
  unfold PoolMem.findW Pool.findW
  rw [h.wbusy]
  exact (find_map cw _ _ (fun _ => rfl) _).1

theorem Agree.findP {s : Pool.St V} {p : Pool} {e : Env} (h : Agree s p e) (bid : Nat) : findP p bid = (Pool.findP s bid).map cp := by
  unfold PoolMem.findP Pool.findP
  rw [h.pbusy]
  exact (find_map cp _ _ (fun _ => rfl) _).1

theorem Agree.dropW {s : Pool.St V} {p : Pool} {e : Env} (h : Agree s p e) {bid : Nat} {x : Pool.WEntry} (hx : Pool.findW s bid = some x) :
    (dropW p bid).wbusy = (s.wbusy.erase x).map cw := by
  unfold PoolMem.dropW
  dsimp only
  rw [h.wbusy, erase_find _ hx]
  exact (find_map cw _ _ (fun _ => rfl) _).2

theorem Agree.dropP {s : Pool.St V} {p : Pool} {e : Env} (h : Agree s p e) {bid : Nat} {x : Pool.PEntry} (hx : Pool.findP s bid = some x) :
    (dropP p bid).pbusy = (s.pbusy.erase x).map cp := by
  unfold PoolMem.dropP
  dsimp only
  rw [h.pbusy, erase_find _ hx]
  exact (find_map cp _ _ (fun _ => rfl) _).2

theorem Agree.pending {s : Pool.St V} {p : Pool} {e : Env} (h : Agree s p e) (r : Nat) : e.pending r = !Pool.isDone s r := by
  unfold Env.pending Pool.isDone
  rw [h.pend, List.any_map, List.all_eq_not_any_not, Bool.not_not]
  congr 1
  funext x
  simp [bne]

theorem hint_agree {s : Pool.St V} {p : Pool} {e : Env} (h : Agree s p e) (hn : s.pfs = s.pfree.length) (bid : Nat) :
    ∃ p' e', hint p e bid none = .ok (p', e') ∧ Agree (Pool.hint s bid) p' e' := by
  unfold hint Pool.hint
  rw [h.findP]
  cases hp : Pool.findP s bid with
  | some x => exact ⟨p, e, rfl, h⟩
  | none =>
    dsimp only [Option.map_none]
    rw [if_neg (show ¬ (none : Option Pool.PEntry).isSome = true by simp)]
    by_cases hz : s.pfs = 0
    · rw [if_pos (show p.pfs = 0 by rw [h.pfs]; exact hz), if_neg (show ¬ s.pfs ≠ 0 from fun h => h hz)]
      exact ⟨p, e, rfl, h⟩
    · rw [if_neg (show ¬ p.pfs = 0 by rw [h.pfs]; exact hz), if_pos (show s.pfs ≠ 0 from hz), h.pfree]
      cases hl : s.pfree.getLast? with
      | none =>
        have : s.pfree = [] := by simpa using hl
        rw [this] at hn
        exact absurd hn hz
      | some b =>
        have h1 : Agree { s with pfs := s.pfs - 1, pfree := s.pfree.dropLast } { p with pfs := p.pfs - 1, pfree := s.pfree.dropLast } e :=
          ⟨h.wfree, h.wbusy, rfl, h.pbusy, by dsimp only; rw [h.pfs], h.pend, h.nreq⟩
        dsimp only
        rw [h1.findW]
        cases hw : Pool.findW { s with pfs := s.pfs - 1, pfree := s.pfree.dropLast } bid with
        | some x =>
          refine ⟨_, _, rfl, ?_, ?_, ?_, ?_, ?_, ?_, ?_⟩
          · show p.wfree ++ [b] = s.wfree ++ [b]
            rw [h.wfree]
          · exact h1.dropW hw
          · rfl
          · show p.pbusy ++ _ = _
            rw [h.pbusy, List.map_append]
            rfl
          · show p.pfs - 1 = s.pfs - 1
            rw [h.pfs]
          · exact h.pend
          · exact h.nreq
        | none =>
          refine ⟨_, _, rfl, h.wfree, h.wbusy, rfl, ?_, ?_, ?_, ?_⟩
          · show p.pbusy ++ [⟨bid, b, e.nreq, true⟩] = _
            rw [h.pbusy, h.nreq]
            exact (List.map_append (f := cp) (l₁ := s.pbusy) (l₂ := [⟨bid, b, s.nextReq, true⟩])).symm
          · show p.pfs - 1 = s.pfs - 1
            rw [h.pfs]
          · show e.pend ++ [(e.nreq, b)] = List.map _ (s.q ++ [_])
            rw [h.pend, List.map_append, h.nreq]
            rfl
          · show e.nreq + 1 = s.nextReq + 1
            rw [h.nreq]

theorem read_agree {s : Pool.St V} {p : Pool} {e : Env} (h : Agree s p e) (b bid : Nat) :
    ∃ p' e', read p e b bid none = .ok (p', e') ∧ Agree (Pool.pread s b bid).1 p' e' ∧
      e'.client = e.client.erase (b, none) ++ [((Pool.pread s b bid).2.1, some (Pool.pread s b bid).2.2)] := by
  unfold read Pool.pread
  rw [h.findP]
  cases hp : Pool.findP s bid with
  | some x =>
    refine ⟨_, _, rfl, ⟨h.wfree, h.wbusy, ?_, h.dropP hp, ?_, h.pend, h.nreq⟩, rfl⟩
    · show p.pfree ++ [b] = s.pfree ++ [b]
      rw [h.pfree]
    · show p.pfs + 1 = s.pfs + 1
      rw [h.pfs]
  | none =>
    dsimp only [Option.map_none]
    rw [h.findW]
    cases hw : Pool.findW s bid with
    | some x =>
      refine ⟨_, _, rfl, ⟨?_, h.dropW hw, h.pfree, h.pbusy, h.pfs, h.pend, h.nreq⟩, rfl⟩
      show p.wfree ++ [b] = s.wfree ++ [b]
      rw [h.wfree]
    | none =>
      refine ⟨_, _, rfl, ⟨h.wfree, h.wbusy, h.pfree, h.pbusy, h.pfs, ?_, ?_⟩, ?_⟩
      · show e.pend ++ [(e.nreq, b)] = List.map _ (s.q ++ [_])
        rw [h.pend, List.map_append, h.nreq]
        rfl
      · show e.nreq + 1 = s.nextReq + 1
        rw [h.nreq]
      · show e.client.erase (b, none) ++ [(b, some e.nreq)] = _
        rw [h.nreq]

theorem stale_agree {s : Pool.St V} {p : Pool} {e : Env} (h : Agree s p e) (bid : Nat) (dids : List Nat) :
    Agree (Pool.dropStale s bid dids) (stale p bid) (cancelOld p e bid dids) := by
  refine ⟨h.wfree, ?_, h.pfree, h.pbusy, h.pfs, ?_, h.nreq⟩
  · unfold stale Pool.dropStale
    dsimp only
    rw [h.wbusy, List.map_map, List.map_map]
    apply List.map_congr_left
    intro x _
    show (if (x.bid == some bid) = true then { cw x with bid := none } else cw x) = cw (if x.bid = some bid then { x with bid := none } else x)
    by_cases hx : x.bid = some bid
    · rw [if_pos (show (x.bid == some bid) = true by simpa using hx), if_pos hx]
      rfl
    · rw [if_neg (show ¬ (x.bid == some bid) = true by simpa using hx), if_neg hx]
  · unfold cancelOld Pool.dropStale
    dsimp only
    rw [h.pend, List.filter_map]
    congr 1
    apply List.filter_congr
    intro x _
    dsimp only [Function.comp]
    rw [h.wbusy, List.any_map, Bool.and_comm]
    rfl

theorem wwrite_agree {s : Pool.St V} {p : Pool} {e : Env} (h : Agree s p e) (b bid : Nat) (dids : List Nat) :
    Agree (Pool.wwrite s b bid dids) { stale p bid with wbusy := (stale p bid).wbusy ++ [⟨b, some bid, (cancelOld p e bid dids).nreq⟩] }
      (((cancelOld p e bid dids).submit b).drop b) := by
  have h1 := stale_agree h bid dids
  refine ⟨h1.wfree, ?_, h1.pfree, h1.pbusy, h1.pfs, ?_, ?_⟩
  · show (stale p bid).wbusy ++ _ = List.map cw ((Pool.dropStale s bid dids).wbusy ++ [_])
    rw [h1.wbusy, List.map_append, h1.nreq]
    rfl
  · show (cancelOld p e bid dids).pend ++ [((cancelOld p e bid dids).nreq, b)] = List.map _ ((Pool.dropStale s bid dids).q ++ [_])
    rw [h1.pend, List.map_append, h1.nreq]
    rfl
  · show (cancelOld p e bid dids).nreq + 1 = (Pool.dropStale s bid dids).nextReq + 1
    rw [h1.nreq]

theorem cancel_agree {s : Pool.St V} {p : Pool} {e : Env} (h : Agree s p e) (r : Nat) (d : Bool) : Agree (if d then Pool.cancel s r else s) p (e.cancel r d) := by
  cases d with
  | false => exact ⟨h.wfree, h.wbusy, h.pfree, h.pbusy, h.pfs, h.pend, h.nreq⟩
  | true =>
    refine ⟨h.wfree, h.wbusy, h.pfree, h.pbusy, h.pfs, ?_, h.nreq⟩
    show e.pend.filter _ = List.map _ (s.q.filter _)
    rw [h.pend, List.filter_map]
    rfl

theorem write_agree {s : Pool.St V} {p : Pool} {e : Env} (h : Agree s p e) (hi : s.pc = .idle) (hn : s.pfs = s.pfree.length) (b bid : Nat) (dids : List Nat) (did : Bool)
    (ha : s.wbusy.any (fun x => x.bid == some bid && x.blk == b) = false) :
    match (Pool.invalBegin (Pool.wwrite s b bid dids) bid did true).pc with
    | .idle => ∃ p' e', write p e b bid dids did none = .ok (p', e') ∧ Agree (Pool.invalBegin (Pool.wwrite s b bid dids) bid did true) p' e'
    | .inval _ _ =>
      match Pool.invalEnd (Pool.invalBegin (Pool.wwrite s b bid dids) bid did true) bid true with
      | .ok s' => ∃ p' e', write p e b bid dids did none = .ok (p', e') ∧ Agree s' p' e'
      | _ => write p e b bid dids did none = .blocked
    | .resizing _ => False := by
  have h2 := wwrite_agree h b bid dids
  have hpc : (Pool.wwrite s b bid dids).pc = .idle := hi
  have hn2 : (Pool.wwrite s b bid dids).pfs = (Pool.wwrite s b bid dids).pfree.length := hn
  have ha' : p.wbusy.any (fun x => x.bid == some bid && x.blk == b) = false := by
    rw [h.wbusy, List.any_map]
    exact ha
  have hw : write p e b bid dids did none =
      match invalidate { stale p bid with wbusy := (stale p bid).wbusy ++ [⟨b, some bid, (cancelOld p e bid dids).nreq⟩] } (((cancelOld p e bid dids).submit b).drop b) bid did none with
        | .ok (true, p3, e3, m3) => hint p3 e3 bid m3
        | .ok (false, p3, e3, _) => .ok (p3, e3)
        | .threw p3 e3 => .threw p3 e3
        | .blocked => .blocked
        | .ub => .ub
        | .assertFail => .assertFail := by
    unfold write
    rw [if_neg (by rw [ha']; simp)]
    rfl
  rw [hw]
  clear hw
  revert h2 hpc hn2
  generalize Pool.wwrite s b bid dids = s2
  generalize ({ stale p bid with wbusy := (stale p bid).wbusy ++ [⟨b, some bid, (cancelOld p e bid dids).nreq⟩] } : Pool) = p2
  generalize ((cancelOld p e bid dids).submit b).drop b = e2
  intro h2 hpc hn2
  unfold invalidate Pool.invalBegin
  rw [h2.findP]
  cases hf : Pool.findP s2 bid with
  | none =>
    dsimp only [Option.map_none]
    rw [hpc]
    exact ⟨_, _, rfl, h2⟩
  | some x =>
    dsimp only [Option.map_some]
    have h3 := cancel_agree h2 x.req (x.rd && did)
    have hcomm : (did && (cp x).rd) = (x.rd && did) := Bool.and_comm _ _
    rw [hcomm]
    unfold Pool.invalEnd
    have hf3 : Pool.findP { (if (x.rd && did) = true then Pool.cancel s2 x.req else s2) with pc := .inval bid true } bid = some x := by
      rw [← hf]
      cases x.rd && did <;> rfl
    rw [hf3]
    dsimp only
    have hd : Pool.isDone { (if (x.rd && did) = true then Pool.cancel s2 x.req else s2) with pc := .inval bid true } x.req =
        !(e2.cancel x.req (x.rd && did)).pending x.req := by
      rw [h3.pending, Bool.not_not]
      rfl
    rw [hd]
    have hr : (cp x).req = x.req := rfl
    rw [hr]
    cases hpd : (e2.cancel x.req (x.rd && did)).pending x.req with
    | true =>
      simp
    | false =>
      simp only [Bool.not_false, if_true, Bool.false_eq_true, if_false, alloc]
      have h4 : Agree { (if (x.rd && did) = true then Pool.cancel s2 x.req else s2) with pfs := s2.pfs + 1, pfree := s2.pfree ++ [x.blk], pbusy := s2.pbusy.erase x, pc := .idle }
          { dropP p2 bid with pfs := p2.pfs + 1, pfree := p2.pfree ++ [x.blk] } (e2.cancel x.req (x.rd && did)) :=
        ⟨h3.wfree, h3.wbusy, by dsimp only; rw [h2.pfree], h2.dropP hf, by dsimp only; rw [h2.pfs], h3.pend, h3.nreq⟩
      have h5 := hint_agree h4 (by dsimp only; rw [List.length_append, hn2]; rfl) bid
      have e1 : (if (x.rd && did) = true then Pool.cancel s2 x.req else s2).pfs = s2.pfs := by cases x.rd && did <;> rfl
      have e3 : (if (x.rd && did) = true then Pool.cancel s2 x.req else s2).pfree = s2.pfree := by cases x.rd && did <;> rfl
      have e4 : (if (x.rd && did) = true then Pool.cancel s2 x.req else s2).pbusy = s2.pbusy := by cases x.rd && did <;> rfl
      rw [e1, e3, e4]
      exact h5

theorem map_eraseIdx' {α β : Type} (g : α → β) : ∀ (l : List α) (c : Nat), (l.map g).eraseIdx c = (l.eraseIdx c).map g
  | [], _ => rfl
  | _ :: _, 0 => rfl
  | x :: l, c + 1 => congrArg (g x :: ·) (map_eraseIdx' g l c)

theorem checkBusy_all (e : Env) : ∀ (l : List WB), checkBusy e l none = (l.filter (fun x => e.pending x.req), (l.filter (fun x => !e.pending x.req)).map (·.blk), some none)
  | [] => rfl
  | x :: l => by
    unfold checkBusy
    rw [checkBusy_all e l]
    cases h : e.pending x.req with
    | true => simp [h]
    | false => simp [h, alloc, checkBusy_all e l]

theorem steal_agree {s : Pool.St V} {p : Pool} {e : Env} (h : Agree s p e) (c : Nat) :
    match Pool.wsteal s (some c) ((s.wbusy.map (·.req)).filter (Pool.isDone s)) with
    | .ok (s', b) => ∃ p', wsteal p e c none = .ok (b, p', none) ∧ Agree s' p' e
    | .blocked => wsteal p e c none = .blocked
    | .assertFail => wsteal p e c none = .assertFail
    | .die => False := by
  unfold Pool.wsteal wsteal
  rw [h.wfree]
  cases hl : s.wfree.getLast? with
  | some b =>
    have hne : s.wfree ≠ [] := by intro e; rw [e] at hl; exact nomatch hl
    have hlen : 0 < s.wfree.length := List.length_pos_iff.2 hne
    rw [if_neg (show ¬ Pool.wsize s = 0 by unfold Pool.wsize; omega)]
    exact ⟨_, rfl, rfl, h.wbusy, h.pfree, h.pbusy, h.pfs, h.pend, h.nreq⟩
  | none =>
    have hnil : s.wfree = [] := by simpa using hl
    dsimp only
    by_cases hb : s.wbusy = []
    · rw [if_pos (show Pool.wsize s = 0 by unfold Pool.wsize; rw [hnil, hb]; rfl), if_pos (show p.wbusy = [] by rw [h.wbusy, hb]; rfl)]
    · have hlen : 0 < s.wbusy.length := List.length_pos_iff.2 hb
      rw [if_neg (show ¬ Pool.wsize s = 0 by unfold Pool.wsize; omega), if_neg (show ¬ p.wbusy = [] by rw [h.wbusy]; simpa using hb)]
      rw [h.wbusy, List.getElem?_map]
      cases hx : s.wbusy[c]? with
      | none => rfl
      | some x =>
        dsimp only [Option.map_some]
        have hall : ((s.wbusy.map (·.req)).filter (Pool.isDone s)).all (Pool.isDone s) = true := by
          rw [List.all_eq_true]
          exact fun r hr => (List.mem_filter.1 hr).2
        rw [hall, Bool.and_true, show (cw x).req = x.req from rfl, h.pending]
        cases hd : Pool.isDone s x.req with
        | false => simp
        | true =>
          simp only [Bool.not_true, Bool.false_eq_true, if_false, if_true]
          rw [checkBusy_all]
          dsimp only
          have hsub : ∀ y ∈ s.wbusy.eraseIdx c, ((s.wbusy.map (·.req)).filter (Pool.isDone s)).contains y.req = Pool.isDone s y.req := by
            intro y hy
            have hy := List.mem_of_mem_eraseIdx hy
            rw [Bool.eq_iff_iff, List.contains_iff_mem, List.mem_filter]
            exact ⟨fun h => h.2, fun h => ⟨List.mem_map_of_mem hy (f := (·.req)), h⟩⟩
          have hm : (s.wbusy.map cw).eraseIdx c = (s.wbusy.eraseIdx c).map cw := map_eraseIdx' cw _ _
          refine ⟨_, rfl, ?_, ?_, h.pfree, h.pbusy, h.pfs, h.pend, h.nreq⟩
          · dsimp only
            rw [hm, List.filter_map, List.map_map]
            congr 1
            rw [show ((s.wbusy.eraseIdx c).filter fun y => ((s.wbusy.map (·.req)).filter (Pool.isDone s)).contains y.req) =
              (s.wbusy.eraseIdx c).filter ((fun x => !e.pending x.req) ∘ cw) from List.filter_congr fun y hy => by
                rw [hsub y hy]
                show _ = !e.pending y.req
                rw [h.pending, Bool.not_not]]
            rfl
          · dsimp only
            rw [hm, List.filter_map]
            congr 1
            refine List.filter_congr fun y hy => ?_
            rw [hsub y hy]
            show e.pending y.req = _
            rw [h.pending]

theorem invalidate_agree {s : Pool.St V} {p : Pool} {e : Env} (h : Agree s p e) (hi : s.pc = .idle) (bid : Nat) (did : Bool) :
    match (Pool.invalBegin s bid did false).pc with
    | .idle => ∃ p' e' m, invalidate p e bid did none = .ok (false, p', e', m) ∧ Agree (Pool.invalBegin s bid did false) p' e'
    | .inval _ _ =>
      match Pool.invalEnd (Pool.invalBegin s bid did false) bid false with
      | .ok s' => ∃ p' e' m, invalidate p e bid did none = .ok (true, p', e', m) ∧ Agree s' p' e'
      | _ => invalidate p e bid did none = .blocked
    | .resizing _ => False := by
  unfold invalidate Pool.invalBegin
  rw [h.findP]
  cases hf : Pool.findP s bid with
  | none =>
    dsimp only [Option.map_none]
    rw [hi]
    exact ⟨_, _, _, rfl, h⟩
  | some x =>
    dsimp only [Option.map_some]
    have h3 := cancel_agree h x.req (x.rd && did)
    rw [show (did && (cp x).rd) = (x.rd && did) from Bool.and_comm _ _]
    unfold Pool.invalEnd
    have hf3 : Pool.findP { (if (x.rd && did) = true then Pool.cancel s x.req else s) with pc := .inval bid false } bid = some x := by
      rw [← hf]
      cases x.rd && did <;> rfl
    rw [hf3]
    dsimp only
    have hd : Pool.isDone { (if (x.rd && did) = true then Pool.cancel s x.req else s) with pc := .inval bid false } x.req =
        !(e.cancel x.req (x.rd && did)).pending x.req := by
      rw [h3.pending, Bool.not_not]
      rfl
    rw [hd, show (cp x).req = x.req from rfl]
    cases hpd : (e.cancel x.req (x.rd && did)).pending x.req with
    | true => simp
    | false =>
      simp only [Bool.not_false, if_true, Bool.false_eq_true, if_false, alloc]
      have e1 : (if (x.rd && did) = true then Pool.cancel s x.req else s).pfs = s.pfs := by cases x.rd && did <;> rfl
      have e3 : (if (x.rd && did) = true then Pool.cancel s x.req else s).pfree = s.pfree := by cases x.rd && did <;> rfl
      have e4 : (if (x.rd && did) = true then Pool.cancel s x.req else s).pbusy = s.pbusy := by cases x.rd && did <;> rfl
      rw [e1, e3, e4]
      exact ⟨_, _, _, rfl, h3.wfree, h3.wbusy, by dsimp only [dropP]; rw [h.pfree]; rfl, h.dropP hf, by dsimp only; rw [h.pfs], h3.pend, h3.nreq⟩

end Foxxll.PoolMem
