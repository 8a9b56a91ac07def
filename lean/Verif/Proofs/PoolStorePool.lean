import Verif.Spec.PoolStore
import Verif.Proofs.Pools
import Verif.Proofs.PoolsAux
/-
What one call does to the requests of the pools.
-/
namespace Foxxll.PoolStore
open Foxxll

/-- No request on an identifier is newer than the write of its busy block. -/
def Newest (s : Pool.St V) : Prop := ∀ e ∈ s.wbusy, ∀ b, e.bid = some b → ∀ x ∈ s.q, x.bid = b → x.id ≤ e.req

/-- Effect of a call that does not cancel. -/
structure Shape (v p : Pool.St V) : Prop where
  mem : p.mem = v.mem
  disk : p.disk = v.disk
  sub : ∀ e ∈ p.wbusy, e ∈ v.wbusy
  req : (p.q = v.q ∧ p.nextReq = v.nextReq) ∨
    ∃ b blk, p.q = v.q ++ [⟨v.nextReq, true, b, blk⟩] ∧ p.nextReq = v.nextReq + 1 ∧ ∀ e ∈ p.wbusy, e.bid ≠ some b

theorem Shape.keep {v p : Pool.St V} (h1 : p.mem = v.mem) (h2 : p.disk = v.disk) (h3 : p.wbusy = v.wbusy) (h4 : p.q = v.q) (h5 : p.nextReq = v.nextReq) :
    Shape v p := ⟨h1, h2, fun e he => by rw [h3] at he; exact he, .inl ⟨h4, h5⟩⟩

theorem Shape.pre {v w p : Pool.St V} (h : Shape w p) (h1 : w.mem = v.mem) (h2 : w.disk = v.disk) (h3 : ∀ e ∈ w.wbusy, e ∈ v.wbusy) (h4 : w.q = v.q)
    (h5 : w.nextReq = v.nextReq) : Shape v p := by
  refine ⟨h.mem.trans h1, h.disk.trans h2, fun e he => h3 e (h.sub e he), ?_⟩
  rw [← h4, ← h5]; exact h.req

theorem Shape.newest {v p : Pool.St V} (h : Shape v p) (hn : Newest v) : Newest p := by
  intro e he b hb x hx hxb
  rcases h.req with ⟨h1, _⟩ | ⟨b', blk, h1, h2, h3⟩
  · rw [h1] at hx; exact hn e (h.sub e he) b hb x hx hxb
  · rw [h1] at hx
    rcases List.mem_append.1 hx with hx | hx
    · exact hn e (h.sub e he) b hb x hx hxb
    · rw [List.mem_singleton] at hx; subst hx
      simp only at hxb; subst hxb
      exact absurd hb (h3 e he)

theorem findW_none {v : Pool.St V} {b : Nat} (h : Pool.findW v b = none) : ∀ e ∈ v.wbusy, e.bid ≠ some b := by
  intro e he hb
  unfold Pool.findW at h
  rw [List.find?_eq_none] at h
  exact h e he (by simp [hb])

theorem hint_shape (v : Pool.St V) (b : Nat) : Shape v (Pool.hint v b) := by
  unfold Pool.hint
  split
  · exact .keep rfl rfl rfl rfl rfl
  · split
    · split
      · exact .keep rfl rfl rfl rfl rfl
      · rename_i blk hb
        simp only
        split
        · rename_i e he
          exact ⟨rfl, rfl, fun x hx => List.mem_of_mem_erase hx, .inl ⟨rfl, rfl⟩⟩
        · rename_i he
          refine ⟨rfl, rfl, fun x hx => hx, .inr ⟨b, blk, rfl, rfl, fun e h => ?_⟩⟩
          exact findW_none he e h
    · exact .keep rfl rfl rfl rfl rfl

theorem wsteal_shape {v p : Pool.St V} {c : Option Nat} {polled : List Nat} {blk : Nat} (h : Pool.wsteal v c polled = .ok (p, blk)) : Shape v p := by
  unfold Pool.wsteal at h
  split at h
  · cases h
  · split at h
    · injection h with h; injection h with h _; subst h
      exact .keep rfl rfl rfl rfl rfl
    · split at h
      · cases h
      · split at h
        · cases h
        · split at h
          · injection h with h; injection h with h _; subst h
            refine ⟨rfl, rfl, fun x hx => ?_, .inl ⟨rfl, rfl⟩⟩
            exact List.mem_of_mem_eraseIdx (List.mem_filter.1 hx).1
          · cases h

theorem pread_shape (v : Pool.St V) (blk b : Nat) : Shape v (Pool.pread v blk b).1 := by
  unfold Pool.pread
  split
  · exact .keep rfl rfl rfl rfl rfl
  · split
    · exact ⟨rfl, rfl, fun x hx => List.mem_of_mem_erase hx, .inl ⟨rfl, rfl⟩⟩
    · rename_i he
      exact ⟨rfl, rfl, fun x hx => hx, .inr ⟨b, blk, rfl, rfl, fun e h => findW_none he e h⟩⟩

theorem invalEnd_shape {v p : Pool.St V} {b : Nat} {r : Bool} (h : Pool.invalEnd v b r = .ok p) : Shape v p := by
  unfold Pool.invalEnd at h
  split at h
  · cases h
  · split at h
    · simp only at h
      split at h
      · injection h with h; subst h
        exact (hint_shape _ b).pre rfl rfl (fun _ h => h) rfl rfl
      · injection h with h; subst h
        exact .keep rfl rfl rfl rfl rfl
    · cases h

theorem simple_shape {v p : Pool.St V} {op : Pool.Op V} (ho : simple op = true) (h : Pool.step true v op = .ok p) : Shape v p := by
  cases op with
  | alloc =>
    simp only [Pool.step] at h
    split at h
    · injection h with h; subst h; exact .keep rfl rfl rfl rfl rfl
    · cases h
  | fill blk x => cases ho
  | write => cases ho
  | hint b =>
    simp only [Pool.step] at h
    split at h
    · injection h with h; subst h; exact hint_shape v b
    · cases h
  | invalidate b c =>
    simp only [simple, Bool.not_eq_true'] at ho
    subst ho
    simp only [Pool.step] at h
    split at h
    · injection h with h; subst h
      unfold Pool.invalBegin
      split
      · exact .keep rfl rfl rfl rfl rfl
      · simp only [Bool.and_false, Bool.false_eq_true, if_false]
        exact .keep rfl rfl rfl rfl rfl
    · cases h
  | cancelRead => cases ho
  | read blk b =>
    simp only [Pool.step] at h
    split at h
    · injection h with h; subst h
      have := pread_shape { v with uidle := v.uidle.erase blk } blk b
      have := this.pre (v := v) rfl rfl (fun _ h => h) rfl rfl
      exact ⟨this.mem, this.disk, this.sub, this.req⟩
    · cases h
  | steal c polled =>
    simp only [Pool.step] at h
    split at h
    · split at h
      · rename_i hw
        injection h with h; subst h
        have := wsteal_shape hw
        exact ⟨this.mem, this.disk, this.sub, this.req⟩
      all_goals cases h
    · cases h
  | add blk =>
    simp only [Pool.step] at h
    split at h
    · injection h with h; subst h; exact .keep rfl rfl rfl rfl rfl
    · cases h
  | stealP =>
    simp only [Pool.step] at h
    split at h
    · split at h
      · cases h
      · injection h with h; subst h; exact .keep rfl rfl rfl rfl rfl
    · cases h
  | addP blk =>
    simp only [Pool.step] at h
    split at h
    · injection h with h; subst h; exact .keep rfl rfl rfl rfl rfl
    · cases h
  | resizeW n =>
    simp only [Pool.step] at h
    split at h
    · injection h with h; subst h
      unfold Pool.wresize
      split <;> exact .keep rfl rfl rfl rfl rfl
    · cases h
  | resizeP n =>
    simp only [Pool.step] at h
    split at h
    · injection h with h; subst h
      unfold Pool.presize
      split <;> exact .keep rfl rfl rfl rfl rfl
    · cases h
  | collect i =>
    simp only [Pool.step] at h
    split at h
    · split at h
      · cases h
      · split at h
        · injection h with h; subst h; exact .keep rfl rfl rfl rfl rfl
        · cases h
    · cases h
  | work c polled =>
    simp only [Pool.step] at h
    split at h
    · cases h
    · exact invalEnd_shape h
    · injection h with h; subst h; exact .keep rfl rfl rfl rfl rfl
    · split at h
      · rename_i hw
        injection h with h; subst h
        have := wsteal_shape hw
        exact ⟨this.mem, this.disk, this.sub, this.req⟩
      all_goals cases h
  | serve r => cases ho

/-- Effect of the last part of `write`. -/
structure Wrote (v p : Pool.St V) (blk bid : Nat) (canc : List Nat) : Prop where
  mem : p.mem = v.mem
  disk : p.disk = v.disk
  next : p.nextReq = v.nextReq + 1
  q : p.q = v.q.filter (fun x => !(canc.contains x.id && v.wbusy.any (fun e => e.bid == some bid && e.req == x.id))) ++ [⟨v.nextReq, false, bid, blk⟩]
  busy : ∀ e ∈ p.wbusy, ∀ b, e.bid = some b → (e = ⟨blk, v.nextReq, some bid⟩ ∨ (e ∈ v.wbusy ∧ b ≠ bid))

theorem write_wrote {v p : Pool.St V} {blk bid : Nat} {canc : List Nat} (h : Pool.step true v (.write blk bid canc false) = .ok p) :
    Wrote v p blk bid canc := by
  simp only [Pool.step] at h
  split at h
  · split at h
    · cases h
    · injection h with h
      have key : Wrote v (Pool.wwrite { v with uidle := v.uidle.erase blk, last := Pool.upd v.last bid (v.mem blk) } blk bid canc) blk bid canc := by
        refine ⟨rfl, rfl, rfl, rfl, ?_⟩
        intro e he b hb
        simp only [Pool.wwrite, Pool.dropStale, Pool.submit, List.mem_append, List.mem_map, List.mem_singleton] at he
        rcases he with ⟨a, ha, hae⟩ | he
        · refine .inr ?_
          split at hae
          · subst hae; cases hb
          · subst hae
            rename_i hne
            exact ⟨ha, fun hc => hne (by rw [hb, hc])⟩
        · exact .inl he
      subst h
      unfold Pool.invalBegin
      split
      · exact key
      · simp only [Bool.and_false, Bool.false_eq_true, if_false]
        exact ⟨key.mem, key.disk, key.next, key.q, key.busy⟩
  · cases h

theorem Wrote.newest {v p : Pool.St V} {blk bid : Nat} {canc : List Nat} (h : Wrote v p blk bid canc) (hn : Newest v) (hlt : ∀ x ∈ v.q, x.id < v.nextReq) :
    Newest p := by
  intro e he b hb x hx hxb
  rw [h.q] at hx
  rcases h.busy e he b hb with he' | ⟨he', hne⟩
  · subst he'
    rcases List.mem_append.1 hx with hx | hx
    · exact Nat.le_of_lt (hlt x (List.mem_filter.1 hx).1)
    · rw [List.mem_singleton] at hx; subst hx; exact Nat.le_refl _
  · rcases List.mem_append.1 hx with hx | hx
    · exact hn e he' b hb x (List.mem_filter.1 hx).1 hxb
    · rw [List.mem_singleton] at hx; subst hx
      exact absurd hxb.symm hne

/-- Requests under way use different blocks. -/
theorem blk_ne {v : Pool.St V} (h : Pool.Reach true v) {x y : Pool.Req} (hx : x ∈ v.q) (hy : y ∈ v.q) (hb : x.blk = y.blk) : x = y := by
  have hi := Pool.reach_inv h
  obtain ⟨e, he, h1, h2⟩ := hi.ci.infl x hx
  obtain ⟨f, hf, g1, g2⟩ := hi.ci.infl y hy
  have : e = f := Pool.blk_inj hi.ci.ents_nd he hf (by rw [h1, g1, hb])
  subst this
  exact Pool.pairwise_id_inj hi.ci.ids hx hy (by rw [← h2, g2])

/-- A request under way is one of the write of a busy block only if it concerns the same identifier. -/
theorem busy_bid {v : Pool.St V} (h : Pool.Reach true v) {e : Pool.WEntry} {b : Nat} (he : e ∈ v.wbusy) (hb : e.bid = some b) {x : Pool.Req} (hx : x ∈ v.q)
    (hid : x.id = e.req) : x.bid = b ∧ x.rd = false := by
  have hi := Pool.reach_inv h
  have := hi.ci.fact _ (Pool.mem_ents_w he) x hx hid
  exact ⟨this.2.2 b hb, this.2.1 false rfl⟩

end Foxxll.PoolStore
