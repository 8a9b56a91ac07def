/-
C149: pools own their blocks; what is lost when the memory is exhausted.
-/
import Verif.Proofs.PoolMem
import Verif.Proofs.PoolAgree

namespace Foxxll.PoolMem

/-- Runs of operations, for the examples: `true` goes on after exceptions. -/
def runs (s : St) : List Op → Option St
  | [] => some s
  | op :: l => match step s op with
    | .ok s' => runs s' l
    | .threw s' => runs s' l
    | _ => none

/-- C149 does not hold (`read_write_pool` constructor): if the memory is exhausted in a constructor, the blocks it has allocated have no owner. -/
theorem C149_construct_false : ∃ s op s', Reach true s ∧ Legal s op ∧ step s op = .threw s' ∧ s'.places = [] ∧ s'.env.heap = [0] :=
  ⟨init, .construct 1 0 (some 3), ⟨[none], ⟨[], [0], 1, 0, []⟩⟩, .start, trivial, by decide, by decide, by decide⟩

/-- C149 does not hold (`write_pool::write`): if the list node cannot be allocated, the request is under way on a block that the client still owns without a request; the client deletes the block,
and then the request uses memory that is freed. -/
theorem C149_write_false : ∃ s r, Reach true s ∧ s.env.client = [] ∧ s.env.heap = [] ∧ step s (.complete r) = .ub := by
  have h1 : Reach true ⟨[some ⟨[], [], [], [], 0⟩], ⟨[], [], 0, 0, []⟩⟩ := .next (.construct 0 0 none) .start trivial (by decide)
  have h2 : Reach true ⟨[some ⟨[], [], [], [], 0⟩], ⟨[(0, none)], [0], 1, 0, []⟩⟩ := .next .new h1 trivial (by decide)
  have h3 : Reach true ⟨[some ⟨[], [], [], [], 0⟩], ⟨[(0, none)], [0], 1, 1, [(0, 0)]⟩⟩ :=
    .threw (.write 0 0 5 [] false (some 1)) rfl h2 (by simp [Legal]) (by decide)
  have h4 : Reach true ⟨[some ⟨[], [], [], [], 0⟩], ⟨[], [], 1, 1, [(0, 0)]⟩⟩ := .next (.delete 0) h3 (by simp [Legal]) (by decide)
  exact ⟨_, 0, h4, rfl, rfl, by decide⟩

/-- C149 does not hold (`prefetch_pool::resize`): if the memory is exhausted, the counter of free blocks is too large, and the next `hint` takes a block out of an empty list. -/
theorem C149_resize_false : ∃ s i bid, Reach true s ∧ step s (.hint i bid none) = .ub := by
  have h1 : Reach true ⟨[some ⟨[], [], [], [], 0⟩], ⟨[], [], 0, 0, []⟩⟩ := .next (.construct 0 0 none) .start trivial (by decide)
  have h2 : Reach true ⟨[some ⟨[], [], [], [], 1⟩], ⟨[], [], 0, 0, []⟩⟩ := .threw (.resizePrefetch 0 1 (some 0)) rfl h1 trivial (by decide)
  exact ⟨_, 0, 5, h2, by decide⟩

/-- C149 does not hold (`write_pool::steal`): if the memory is exhausted while other completed blocks are collected, the block found is in no list and is not returned. -/
theorem C149_steal_false : ∃ s op s', Reach true s ∧ s.places = [0, 1] ∧ s.lost = 0 ∧ step s op = .threw s' ∧ s'.places = [1] ∧ 0 ∈ s'.env.heap := by
  have h1 : Reach true ⟨[some ⟨[], [], [], [], 0⟩], ⟨[], [], 0, 0, []⟩⟩ := .next (.construct 0 0 none) .start trivial (by decide)
  have h2 : Reach true ⟨[some ⟨[], [], [], [], 0⟩], ⟨[(0, none)], [0], 1, 0, []⟩⟩ := .next .new h1 trivial (by decide)
  have h3 : Reach true ⟨[some ⟨[], [], [], [], 0⟩], ⟨[(0, none), (1, none)], [1, 0], 2, 0, []⟩⟩ := .next .new h2 trivial (by decide)
  have h4 : Reach true ⟨[some ⟨[], [⟨0, some 5, 0⟩], [], [], 0⟩], ⟨[(1, none)], [1, 0], 2, 1, [(0, 0)]⟩⟩ :=
    .next (.write 0 0 5 [] false none) h3 (by simp [Legal]) (by decide)
  have h5 : Reach true ⟨[some ⟨[], [⟨0, some 5, 0⟩, ⟨1, some 6, 1⟩], [], [], 0⟩], ⟨[], [1, 0], 2, 2, [(0, 0), (1, 1)]⟩⟩ :=
    .next (.write 0 1 6 [] false none) h4 (by simp [Legal]) (by decide)
  have h6 : Reach true ⟨[some ⟨[], [⟨0, some 5, 0⟩, ⟨1, some 6, 1⟩], [], [], 0⟩], ⟨[], [1, 0], 2, 2, [(1, 1)]⟩⟩ := .next (.complete 0) h5 trivial (by decide)
  have h7 : Reach true ⟨[some ⟨[], [⟨0, some 5, 0⟩, ⟨1, some 6, 1⟩], [], [], 0⟩], ⟨[], [1, 0], 2, 2, []⟩⟩ := .next (.complete 1) h6 trivial (by decide)
  exact ⟨_, .steal 0 0 (some 0), ⟨[some ⟨[], [⟨1, some 6, 1⟩], [], [], 0⟩], ⟨[], [1, 0], 2, 2, []⟩⟩, h7, by decide, by decide, by decide, by decide, by decide⟩

/-- C149 (partial: while no memory is exhausted): the blocks of the pools and of the client are exactly the blocks that are allocated, no block is in two places, no step is undefined, and when all pools are
destroyed and the client has no block, all memory is freed.  Missing: exhausted memory, where it does not hold. -/
theorem C149_partial {s : St} (h : Reach false s) : s.places.Perm s.env.heap ∧ s.places.Nodup ∧ (∀ op, Legal s op → step s op ≠ .ub) ∧
    ((∀ o ∈ s.pools, o = none) → s.env.client = [] → s.env.heap = []) := by
  have hi := reach_inv h
  have hq := reach_q h
  have hp : s.places.Perm s.env.heap := List.perm_iff_count.2 hq.eq
  refine ⟨hp, hp.nodup_iff.2 hi.env.nd, fun op hl => step_no_ub hi hq hl, fun h1 h2 => ?_⟩
  have : s.places = [] := by
    unfold St.places
    rw [h2, List.map_nil, List.append_nil, List.flatMap_eq_nil_iff]
    intro o ho
    rw [h1 o ho]
    rfl
  rw [this] at hp
  exact hp.symm.eq_nil

/-- Calls throw only if the memory is exhausted. -/
theorem C149_enough {s s' : St} {op : Op} (h : op.mem = none) : step s op ≠ .threw s' := by
  cases op with
  | construct nw np m =>
    change m = none at h
    subst h
    dsimp only [step]
    obtain ⟨l, e1, h1⟩ := grow_none nw s.env
    obtain ⟨l2, e2, h2⟩ := grow_none np e1
    simp only [construct, alloc, h1, h2]
    exact fun h => nomatch h
  | swap i j =>
    dsimp only [step]
    unfold swap
    split <;> exact fun h => nomatch h
  | destroy i =>
    dsimp only [step]
    unfold destroy
    split
    · split <;> exact fun h => nomatch h
    · exact fun h => nomatch h
  | write i b bid dids did m =>
    change m = none at h
    subst h
    dsimp only [step]
    exact onPool_not_threw fun p p' e' => write_none _ _ _ _ _ _ _ _
  | read i b bid m =>
    change m = none at h
    subst h
    dsimp only [step]
    refine onPool_not_threw fun p p' e' => ?_
    unfold read
    split
    · exact fun h => nomatch h
    · split <;> exact fun h => nomatch h
  | hint i bid m =>
    change m = none at h
    subst h
    dsimp only [step]
    exact onPool_not_threw fun p p' e' => hint_none _ _ _ _ _
  | invalidate i bid did m =>
    change m = none at h
    subst h
    dsimp only [step]
    refine onPool_not_threw fun p p' e' => ?_
    have := (invalidate_none p s.env bid did).1
    split
    · exact fun h => nomatch h
    · rename_i h1; exact absurd h1 (this _ _)
    · exact fun h => nomatch h
    · exact fun h => nomatch h
    · exact fun h => nomatch h
  | steal i c m =>
    change m = none at h
    subst h
    dsimp only [step]
    refine onPool_not_threw fun p p' e' => ?_
    have := (wsteal_none p s.env c).1
    split
    · exact fun h => nomatch h
    · rename_i h1; exact absurd h1 (this _ _)
    · exact fun h => nomatch h
    · exact fun h => nomatch h
    · exact fun h => nomatch h
  | add i b m =>
    change m = none at h
    subst h
    dsimp only [step]
    exact onPool_not_threw fun p p' e' h => nomatch h
  | addPrefetch i b m =>
    change m = none at h
    subst h
    dsimp only [step]
    exact onPool_not_threw fun p p' e' h => nomatch h
  | stealPrefetch i =>
    dsimp only [step]
    refine onPool_not_threw fun p p' e' => ?_
    split <;> exact fun h => nomatch h
  | resizeWrite i n cs m =>
    change m = none at h
    subst h
    dsimp only [step]
    refine onPool_not_threw fun p p' e' => ?_
    unfold wresize
    dsimp only
    split
    · obtain ⟨l, e1, h1⟩ := grow_none (n - (p.wfree.length + p.wbusy.length)) s.env
      rw [h1]
      exact fun h => nomatch h
    · exact wshrink_none _ _ _ _ _ _
  | resizePrefetch i n m =>
    change m = none at h
    subst h
    dsimp only [step]
    refine onPool_not_threw fun p p' e' => ?_
    unfold presize
    dsimp only
    split
    · obtain ⟨l, e1, h1⟩ := grow_none (n - (p.pfs + p.pbusy.length)) s.env
      rw [h1]
      exact fun h => nomatch h
    · exact pshrink_no _ _ _ _ _
  | new => exact fun h => nomatch h
  | delete b => exact fun h => nomatch h
  | wait b =>
    dsimp only [step]
    split
    · split <;> exact fun h => nomatch h
    · exact fun h => nomatch h
  | complete r =>
    dsimp only [step]
    split
    · split <;> exact fun h => nomatch h
    · exact fun h => nomatch h

/-- Also when the memory is exhausted, any number of times: no block is in two places, and no list holds a block that is freed. -/
theorem C149_oom {s : St} (h : Reach true s) : s.places.Nodup ∧ ∀ b ∈ s.places, b ∈ s.env.heap := by
  have hi := reach_inv h
  refine ⟨List.nodup_iff_count.2 fun b => Nat.le_trans (hi.own b) (List.nodup_iff_count.1 hi.env.nd b), fun b hb => mem_heap hi.own hb⟩

/-- An exception loses at most two blocks; in a constructor at most the blocks it is to allocate. -/
theorem C149_loss {s s' : St} {op : Op} (h : Reach true s) (hl : Legal s op) (ht : step s op = .threw s') : s'.lost ≤ s.lost + (op.constructs.getD 2) := by
  have hi := reach_inv h
  by_cases hop : op.isConstruct = true
  · cases op with
    | construct nw np m =>
      have hg := construct_good s nw np m hi
      rw [show construct s nw np m = .threw s' from ht] at hg
      obtain ⟨_, h1, _, h2⟩ := hg
      unfold St.lost
      rw [h1]
      show _ ≤ _ + (nw + np)
      omega
    | _ => exact nomatch hop
  · have hg := step_good s op hi hl (by simpa using hop)
    rw [ht] at hg
    obtain ⟨_, lost, h1, h2⟩ := hg
    have hc : op.constructs.getD 2 = 2 := by cases op <;> first | rfl | exact absurd rfl hop
    have hp : (s'.places ++ lost ++ s.env.heap).Perm (s.places ++ s'.env.heap) := List.perm_iff_count.2 fun b => by
      rw [List.count_append, List.count_append, List.count_append]
      exact h2 b
    have := hp.length_eq
    simp only [List.length_append] at this
    rw [hc]
    unfold St.lost
    omega

/-- Blocks that are lost stay lost: no step frees them or gives them to anybody. -/
theorem C149_forever {s s' : St} {op : Op} {b : Nat} (h : Reach true s) (hl : Legal s op) (ht : step s op = .ok s' ∨ step s op = .threw s')
    (hb : b ∈ s.env.heap) (hn : b ∉ s.places) : b ∈ s'.env.heap ∧ b ∉ s'.places := by
  have hi := reach_inv h
  have hi' := step_inv hi hl ht
  have c1 : 0 < s.env.heap.count b := List.count_pos_iff.2 hb
  have c2 : s.places.count b = 0 := List.count_eq_zero.2 hn
  have c3 : s'.env.heap.count b ≤ 1 := List.nodup_iff_count.1 hi'.env.nd b
  have fin : s.places.count b + s'.env.heap.count b ≥ s'.places.count b + s.env.heap.count b → b ∈ s'.env.heap ∧ b ∉ s'.places := fun hg =>
    ⟨List.count_pos_iff.1 (by omega), List.count_eq_zero.1 (by omega)⟩
  by_cases hop : op.isConstruct = true
  · cases op with
    | construct nw np m =>
      have hg := construct_good s nw np m hi
      have ht : construct s nw np m = .ok s' ∨ construct s nw np m = .threw s' := ht
      rcases ht with ht | ht <;> rw [ht] at hg
      · have := hg.2.1 b
        exact fin (by simp only [List.count_nil] at this; omega)
      · have h1 := hg.2.2.1 b
        have h2 := congrArg (List.count b) hg.2.1
        exact fin (by omega)
    | _ => exact nomatch hop
  · have hg := step_good s op hi hl (by simpa using hop)
    rcases ht with ht | ht <;> rw [ht] at hg
    · have := hg.2.1 b
      exact fin (by simp only [List.count_nil] at this; omega)
    · obtain ⟨_, lost, _, h2⟩ := hg
      have := h2 b
      exact fin (by omega)

/-- `swap` exchanges two pools entirely, changes nothing else, and may be called for one pool with itself. -/
theorem C149_swap {s s' : St} {i j : Nat} (h : step s (.swap i j) = .ok s') :
    s'.env = s.env ∧ s'.pools.length = s.pools.length ∧ s'.pools[i]? = s.pools[j]? ∧ s'.pools[j]? = s.pools[i]? ∧ ∀ k, k ≠ i → k ≠ j → s'.pools[k]? = s.pools[k]? :=
  have h := swap_get h
  ⟨h.1, h.2.1, h.2.2.1, h.2.2.2.1, h.2.2.2.2.2⟩

/-- `add` of either pool that throws changes nothing: the client still has the block. -/
theorem C149_add {s s' : St} {i b : Nat} {m : Mem} (h : step s (.add i b m) = .threw s' ∨ step s (.addPrefetch i b m) = .threw s') : s' = s := by
  have key : ∀ (f : Pool → Env → Out (Pool × Env)), (∀ p e p' e', f p e = .threw p' e' → p' = p ∧ e' = e) → onPool s i f = .threw s' → s' = s := by
    intro f hf h
    unfold onPool at h
    split at h
    · rename_i p hi
      cases hr : f p s.env with
      | threw p' e' =>
        obtain ⟨rfl, rfl⟩ := hf _ _ _ _ hr
        rw [hr] at h
        injection h with h
        rw [← h]
        have : s.pools.set i (some p') = s.pools := by
          apply List.ext_getElem?
          intro k
          by_cases hk : i = k
          · subst hk
            rw [List.getElem?_set]
            simp only [if_true]
            split
            · exact hi.symm
            · rename_i hlt
              rw [List.getElem?_eq_none (Nat.le_of_not_lt hlt)]
          · rw [List.getElem?_set_ne hk]
        rw [this]
      | ok r => rw [hr] at h; exact nomatch h
      | blocked => rw [hr] at h; exact nomatch h
      | ub => rw [hr] at h; exact nomatch h
      | assertFail => rw [hr] at h; exact nomatch h
    · exact nomatch h
  dsimp only [step] at h
  rcases h with h | h
  · refine key _ (fun p e p' e' hx => ?_) h
    split at hx
    · injection hx with h1 h2
      exact ⟨h1.symm, h2.symm⟩
    · exact nomatch hx
  · refine key _ (fun p e p' e' hx => ?_) h
    split at hx
    · injection hx with h1 h2
      exact ⟨h1.symm, h2.symm⟩
    · exact nomatch hx

/-- With enough memory, calls do to one pool what they do in the model of C13 to C19, which has the contents of blocks: `hint` and `read`. -/
theorem C149_agree {V : Type} {s : Pool.St V} {p : Pool} {e : Env} (h : Agree s p e) (hn : s.pfs = s.pfree.length) (b bid : Nat) :
    (∃ p' e', hint p e bid none = .ok (p', e') ∧ Agree (Pool.hint s bid) p' e') ∧
    ∃ p' e', read p e b bid none = .ok (p', e') ∧ Agree (Pool.pread s b bid).1 p' e' ∧
      e'.client = e.client.erase (b, none) ++ [((Pool.pread s b bid).2.1, some (Pool.pread s b bid).2.2)] :=
  ⟨hint_agree h hn bid, read_agree h b bid⟩

/-- Likewise `write`, which there waits in a state of its own. -/
theorem C149_agree_write {V : Type} {s : Pool.St V} {p : Pool} {e : Env} (h : Agree s p e) (hi : s.pc = .idle) (hn : s.pfs = s.pfree.length) (b bid : Nat) (dids : List Nat) (did : Bool)
    (ha : s.wbusy.any (fun x => x.bid == some bid && x.blk == b) = false) :
    match (Pool.invalBegin (Pool.wwrite s b bid dids) bid did true).pc with
    | .idle => ∃ p' e', write p e b bid dids did none = .ok (p', e') ∧ Agree (Pool.invalBegin (Pool.wwrite s b bid dids) bid did true) p' e'
    | .inval _ _ =>
      match Pool.invalEnd (Pool.invalBegin (Pool.wwrite s b bid dids) bid did true) bid true with
      | .ok s' => ∃ p' e', write p e b bid dids did none = .ok (p', e') ∧ Agree s' p' e'
      | _ => write p e b bid dids did none = .blocked
    | .resizing _ => False := write_agree h hi hn b bid dids did ha

/-- Likewise `invalidate`, and `steal` when all completed requests are found completed. -/
theorem C149_agree_steal {V : Type} {s : Pool.St V} {p : Pool} {e : Env} (h : Agree s p e) (hi : s.pc = .idle) (bid c : Nat) (did : Bool) :
    (match (Pool.invalBegin s bid did false).pc with
    | .idle => ∃ p' e' m, invalidate p e bid did none = .ok (false, p', e', m) ∧ Agree (Pool.invalBegin s bid did false) p' e'
    | .inval _ _ =>
      match Pool.invalEnd (Pool.invalBegin s bid did false) bid false with
      | .ok s' => ∃ p' e' m, invalidate p e bid did none = .ok (true, p', e', m) ∧ Agree s' p' e'
      | _ => invalidate p e bid did none = .blocked
    | .resizing _ => False) ∧
    match Pool.wsteal s (some c) ((s.wbusy.map (·.req)).filter (Pool.isDone s)) with
    | .ok (s', b) => ∃ p', wsteal p e c none = .ok (b, p', none) ∧ Agree s' p' e
    | .blocked => wsteal p e c none = .blocked
    | .assertFail => wsteal p e c none = .assertFail
    | .die => False := ⟨invalidate_agree h hi bid did, steal_agree h c⟩

/-! New pools agree. -/

example : Agree (Pool.init 1 2 (fun _ => 'x') (fun _ => 'y')) ⟨[0], [], [1, 2], [], 2⟩ ⟨[(3, none)], [3, 2, 1, 0], 4, 0, []⟩ := ⟨rfl, rfl, rfl, rfl, rfl, rfl, rfl⟩

/-! A history of two pools: a write, a hint that takes over the write, a read that returns the block, `swap`, and destruction; all memory is freed. -/

example : (runs init [.construct 1 1 none, .construct 0 2 none, .new, .write 0 4 7 [] false none, .hint 0 7 none, .swap 0 1]).map (fun s => (s.pools, s.env.pend)) =
    some ([some ⟨[], [], [2, 3], [], 2⟩, some ⟨[0, 1], [], [], [⟨7, 4, 0, false⟩], 0⟩], [(0, 4)]) := by decide

example : (runs init [.construct 1 1 none, .construct 0 2 none, .new, .write 0 4 7 [] false none, .hint 0 7 none, .swap 0 1, .new, .read 1 5 7 none,
    .complete 0, .wait 4, .delete 4, .destroy 0, .destroy 1]).map (fun s => (s.pools, s.env.heap)) = some ([none, none], []) := by decide

/-! A `hint` that throws loses two blocks: the free one, and the one of the write it takes over. -/

example : (runs init [.construct 0 1 none, .new, .write 0 1 7 [] false none, .hint 0 7 (some 0)]).map (fun s => (s.places, s.lost)) = some ([], 2) := by decide

end Foxxll.PoolMem
