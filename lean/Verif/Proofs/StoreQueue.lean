import Verif.Proofs.Queues
/-
Order of the requests of one queue, for the composition of the queues with the files.
-/
namespace Foxxll.Store
open Foxxll

/-- `x` was submitted after `w`. -/
def Aft (q : Queue.St) (w x : Nat) : Prop := ∃ a b, q.sub.map (·.1) = a ++ b ∧ w ∈ a ∧ x ∈ b

theorem Aft.left {q : Queue.St} {w x : Nat} (h : Aft q w x) : w ∈ q.sub.map (·.1) := by
  obtain ⟨a, b, h1, h2, _⟩ := h
  rw [h1]; simp [h2]

theorem Aft.right {q : Queue.St} {w x : Nat} (h : Aft q w x) : x ∈ q.sub.map (·.1) := by
  obtain ⟨a, b, h1, _, h2⟩ := h
  rw [h1]; simp [h2]

theorem Aft.asymm {q : Queue.St} (hn : (q.sub.map (·.1)).Nodup) {w x : Nat} (h : Aft q w x) (h' : Aft q x w) : False := by
  obtain ⟨a, b, h1, h2, h3⟩ := h
  obtain ⟨c, d, h4, h5, h6⟩ := h'
  have e : a ++ b = c ++ d := by rw [← h1, h4]
  rcases List.append_eq_append_iff.1 e with ⟨u, h7, h8⟩ | ⟨u, h7, h8⟩
  · rw [h1, h8, List.nodup_append] at hn
    exact hn.2.2 w h2 w (by simp [h6]) rfl
  · rw [h4, h8, List.nodup_append] at hn
    exact hn.2.2 x h5 x (by simp [h3]) rfl

theorem Aft.irrefl {q : Queue.St} (hn : (q.sub.map (·.1)).Nodup) {w : Nat} : ¬ Aft q w w := fun h => h.asymm hn h

theorem Aft.total {q : Queue.St} {w x : Nat} (hw : w ∈ q.sub.map (·.1)) (hx : x ∈ q.sub.map (·.1)) : w = x ∨ Aft q w x ∨ Aft q x w := by
  obtain ⟨a, b, hab⟩ := List.append_of_mem hw
  rw [hab] at hx
  simp only [List.mem_append, List.mem_cons] at hx
  rcases hx with h | h | h
  · exact .inr (.inr ⟨a, w :: b, hab, h, by simp⟩)
  · exact .inl h.symm
  · exact .inr (.inl ⟨a ++ [w], b, by simp [hab], by simp, h⟩)

theorem Aft.mono {q q' : Queue.St} {w x : Nat} {l : List Nat} (e : q'.sub.map (·.1) = q.sub.map (·.1) ++ l) (h : Aft q w x) : Aft q' w x := by
  obtain ⟨a, b, h1, h2, h3⟩ := h
  exact ⟨a, b ++ l, by rw [e, h1, List.append_assoc], h2, by simp [h3]⟩

theorem Aft.old {q q' : Queue.St} {w x y : Nat} (e : q'.sub.map (·.1) = q.sub.map (·.1) ++ [y]) (h : Aft q' w x) : x = y ∨ Aft q w x := by
  obtain ⟨a, b, h1, h2, h3⟩ := h
  rw [e] at h1
  rcases List.append_eq_append_iff.1 h1 with ⟨u, h7, h8⟩ | ⟨u, h7, h8⟩
  · have hx : x ∈ [y] := by rw [h8]; simp [h3]
    exact .inl (by simpa using hx)
  · rw [h8] at h3
    simp only [List.mem_append, List.mem_singleton] at h3
    rcases h3 with h3 | h3
    · exact .inr ⟨a, u, h7, h2, h3⟩
    · exact .inl h3

theorem Aft.push {q q' : Queue.St} {w y : Nat} (e : q'.sub.map (·.1) = q.sub.map (·.1) ++ [y]) (h : w ∈ q.sub.map (·.1)) : Aft q' w y :=
  ⟨_, [y], e, h, by simp⟩

/-- The later of two elements. -/
theorem Aft.split {q : Queue.St} {w x : Nat} {v : Bool} (hn : (q.sub.map (·.1)).Nodup) (h : Aft q w x) (hx : (x, v) ∈ q.sub) :
    ∃ a b, q.sub = a ++ (x, v) :: b ∧ w ∈ a.map (·.1) := by
  obtain ⟨a, b, hab⟩ := List.append_of_mem hx
  refine ⟨a, b, hab, ?_⟩
  have hw := h.left
  rw [hab] at hw
  simp only [List.map_append, List.map_cons, List.mem_append, List.mem_cons] at hw
  rcases hw with hw | hw | hw
  · exact hw
  · subst hw; exact absurd h (Aft.irrefl hn)
  · exact absurd (⟨a.map (·.1) ++ [x], b.map (·.1), by simp [hab], by simp, hw⟩ : Aft q x w) (fun h' => h.asymm hn h')

/-- Elements of a list in front of an element of its beginning lie in that beginning. -/
theorem prefix_before {l p q a b : List Nat} {x r : Nat} (hn : l.Nodup) (h1 : l = p ++ q) (h2 : l = a ++ r :: b) (_ : x ∈ a) (hr : r ∈ p) :
    ∃ c, p = a ++ r :: c := by
  have e : p ++ q = a ++ r :: b := by rw [← h1, h2]
  rcases List.append_eq_append_iff.1 e with ⟨u, h7, h8⟩ | ⟨u, h7, h8⟩
  · rw [h2, h7] at hn
    rw [List.nodup_append] at hn
    exact absurd rfl (hn.2.2 r (by simp [hr]) r (by simp))
  · cases u with
    | nil =>
      simp only [List.append_nil] at h7
      rw [h2, ← h7, List.nodup_append] at hn
      exact absurd rfl (hn.2.2 r hr r (by simp))
    | cons y u =>
      simp only [List.cons_append, List.cons.injEq] at h8
      exact ⟨u, by rw [h7, h8.1]⟩

/-- Steps allowed on one queue: no cancellation if reads and writes have separate queues. -/
def Calm (k : Queue.Kind) : Queue.St → Queue.Op → Prop := fun _ op => k = .twoQ → ∀ r w, op ≠ .cancel r w

theorem subs_filter (f : Bool → Bool) (s : Queue.St) {a b : List (Nat × Bool)} {v : Nat} {wv : Bool} (h : s.sub = a ++ (v, wv) :: b) (hf : f wv = true)
    (hc : v ∉ s.cancelled) :
    (Queue.subs f s).filter (fun r => !s.cancelled.contains r) =
      ((a.filter (fun p => f p.2)).map (·.1)).filter (fun r => !s.cancelled.contains r) ++
        v :: ((b.filter (fun p => f p.2)).map (·.1)).filter (fun r => !s.cancelled.contains r) := by
  simp [Queue.subs, h, hf, hc]

/-- A request of one queue is served after the requests submitted before it to that queue. -/
theorem fifo_served {k : Queue.Kind} {s : Queue.St} (ho : Queue.Ord k s) {f : Bool → Bool} {q : List Nat} (hf : Queue.Fifo f s q)
    {a b : List (Nat × Bool)} {v x : Nat} {wv wx : Bool} (hs : s.sub = a ++ (v, wv) :: b) (hx : (x, wx) ∈ a) (fv : f wv = true) (fx : f wx = true)
    (hcx : x ∉ s.cancelled) (hcv : v ∉ s.cancelled) (hv : v ∈ s.started) : x ∈ s.served := by
  have hn : ((Queue.subs f s).filter (fun r => !s.cancelled.contains r)).Nodup := by
    exact List.Pairwise.filter _ (Queue.subs_nodup ho.nodup)
  have e := subs_filter f s hs fv hcv
  have hxa : x ∈ ((a.filter (fun p => f p.2)).map (·.1)).filter (fun r => !s.cancelled.contains r) := by
    rw [List.mem_filter]
    refine ⟨List.mem_map.2 ⟨(x, wx), List.mem_filter.2 ⟨hx, fx⟩, rfl⟩, by simpa using hcx⟩
  have hvs : v ∈ Queue.subs f s := by
    unfold Queue.subs
    refine List.mem_map.2 ⟨(v, wv), List.mem_filter.2 ⟨by rw [hs]; simp, fv⟩, rfl⟩
  unfold Queue.Fifo at hf
  obtain ⟨c, hc⟩ := prefix_before hn hf e hxa (List.mem_filter.2 ⟨hv, by simpa using hvs⟩)
  have hnp : (s.started.filter (fun r => (Queue.subs f s).contains r)).Nodup := ho.sd.filter _
  have hxs : x ∈ s.started := by
    have : x ∈ s.started.filter (fun r => (Queue.subs f s).contains r) := by rw [hc]; simp only [List.mem_append]; exact .inl hxa
    exact (List.mem_filter.1 this).1
  have hxsub : (Queue.subs f s).contains x = true := by
    have : x ∈ s.started.filter (fun r => (Queue.subs f s).contains r) := by rw [hc]; simp only [List.mem_append]; exact .inl hxa
    exact (List.mem_filter.1 this).2
  rw [ho.srv] at hxs
  rcases List.mem_append.1 hxs with h | h
  · exact h
  · exfalso
    have hcur : Queue.cur s.wpc = [x] := by
      cases hw : s.wpc <;> rw [hw] at h <;> simp [Queue.cur] at h ⊢
      exact h.symm
    rw [ho.srv, hcur, List.filter_append] at hc
    have : [x].filter (fun r => (Queue.subs f s).contains r) = [x] := by
      rw [List.filter_cons, hxsub]; rfl
    rw [this] at hc
    rw [ho.srv, hcur, List.filter_append, this, hc] at hnp
    have hl : (a.filter (fun p => f p.2)).map (·.1) |>.filter (fun r => !s.cancelled.contains r) |>.Nodup := by
      rw [List.nodup_append] at hnp; exact hnp.1
    -- the last element of the list is `x`
    have e1 := congrArg List.getLast? hc
    rw [List.getLast?_append, List.getLast?_append] at e1
    simp only [List.getLast?_singleton, Option.some_or] at e1
    have hm : x ∈ v :: c := by
      cases hg : (v :: c).getLast? with
      | none => simp at hg
      | some z =>
        rw [hg] at e1
        simp only [Option.some_or, Option.some.injEq] at e1
        subst e1
        exact List.mem_of_getLast? hg
    rw [List.nodup_append] at hnp
    exact hnp.2.2 x hxa x hm rfl

/-- What is served (or being served) comes after the writes submitted before it, and with a single queue after
everything submitted before it. -/
theorem order {k : Queue.Kind} {s : Queue.St} (h : Queue.Reach k (Calm k) s) {v x : Nat} {wv wx : Bool}
    (ha : Aft s x v) (hv : (v, wv) ∈ s.sub) (hx : (x, wx) ∈ s.sub) (hk : k = .oneQ ∨ wx = true)
    (hcx : x ∉ s.cancelled) (hvs : v ∈ s.started) : x ∈ s.served := by
  have ho := Queue.reach_ord h
  obtain ⟨a, b, hs, hxa⟩ := ha.split ho.nodup hv
  have hx2 : (x, wx) ∈ a := by
    obtain ⟨⟨x', w'⟩, h1, h2⟩ := List.mem_map.1 hxa
    simp only at h2; subst h2
    rw [hs] at hx
    simp only [List.mem_append, List.mem_cons] at hx
    rcases hx with hx | hx | hx
    · exact hx
    · exfalso
      have hn := ho.nodup
      rw [hs, List.map_append, List.nodup_append] at hn
      injection hx with e1 e2
      exact hn.2.2 x' hxa x' (by simp [e1]) rfl
    · exfalso
      have hn := ho.nodup
      rw [hs, List.map_append, List.nodup_append] at hn
      exact hn.2.2 x' hxa x' (by simp only [List.map_cons, List.mem_cons]; exact .inr (List.mem_map.2 ⟨_, hx, rfl⟩)) rfl
  have hcv : v ∉ s.cancelled := by
    intro hc
    have hp := Queue.due_perm ho
    have : v ∈ Queue.due s := hp.mem_iff.2 (by simp [hvs])
    simp [Queue.due] at this
    exact this.2 hc
  cases k with
  | oneQ => exact fifo_served ho ho.fw hs hx2 (by simp [Queue.toW]) (by simp [Queue.toW]) hcx hcv hvs
  | twoQ =>
    have hw : wx = true := by
      rcases hk with hk | hk
      · cases hk
      · exact hk
    subst hw
    cases wv with
    | true => exact fifo_served ho ho.fw hs hx2 (by simp [Queue.toW]) (by simp [Queue.toW]) hcx hcv hvs
    | false =>
      have hraw := (Queue.reach_raw (fun s op hp r w => hp rfl r w) h).raw
      obtain ⟨p, q, hpq⟩ := List.append_of_mem hvs
      have := hraw p v q hpq a b hs x hx2
      rw [ho.srv] at hpq
      rcases List.append_eq_append_iff.1 hpq with ⟨u, h7, h8⟩ | ⟨u, h7, h8⟩
      · -- the request in the works is the last one
        have hl : u ++ v :: q = Queue.cur s.wpc := h8.symm
        have : u = [] := by
          cases u with
          | nil => rfl
          | cons y u =>
            exfalso
            have := congrArg List.length hl
            cases hw : s.wpc <;> rw [hw] at this <;> simp [Queue.cur] at this
        subst this
        rw [List.append_nil] at h7
        rw [← h7]; assumption
      · rw [h7]; simp [this]

/-- With cancellations, too: with a single queue everything, with two queues the writes among each other. -/
theorem order_same {k : Queue.Kind} {P : Queue.St → Queue.Op → Prop} {s : Queue.St} (h : Queue.Reach k P s) {v x : Nat} {wv wx : Bool}
    (ha : Aft s x v) (hv : (v, wv) ∈ s.sub) (hx : (x, wx) ∈ s.sub) (hk : k = .oneQ ∨ (wx = true ∧ wv = true))
    (hcx : x ∉ s.cancelled) (hvs : v ∈ s.started) : x ∈ s.served := by
  have ho := Queue.reach_ord h
  obtain ⟨a, b, hs, hxa⟩ := ha.split ho.nodup hv
  have hx2 : (x, wx) ∈ a := by
    obtain ⟨⟨x', w'⟩, h1, h2⟩ := List.mem_map.1 hxa
    simp only at h2; subst h2
    rw [hs] at hx
    simp only [List.mem_append, List.mem_cons] at hx
    have hn := ho.nodup
    rw [hs, List.map_append, List.nodup_append] at hn
    rcases hx with hx | hx | hx
    · exact hx
    · injection hx with e1 e2
      exact absurd rfl (hn.2.2 x' hxa x' (by simp [e1]))
    · exact absurd rfl (hn.2.2 x' hxa x' (by simp only [List.map_cons, List.mem_cons]; exact .inr (List.mem_map.2 ⟨_, hx, rfl⟩)))
  have hcv : v ∉ s.cancelled := by
    intro hc
    have : v ∈ Queue.due s := (Queue.due_perm ho).mem_iff.2 (by simp [hvs])
    simp [Queue.due] at this
    exact this.2 hc
  cases k with
  | oneQ => exact fifo_served ho ho.fw hs hx2 (by simp [Queue.toW]) (by simp [Queue.toW]) hcx hcv hvs
  | twoQ =>
    rcases hk with hk | ⟨h1, h2⟩
    · cases hk
    · exact fifo_served ho ho.fw hs hx2 (by simp [Queue.toW, h2]) (by simp [Queue.toW, h1]) hcx hcv hvs

theorem reach_any {k : Queue.Kind} {P : Queue.St → Queue.Op → Prop} {s : Queue.St} (h : Queue.Reach k P s) : Queue.Reach k (fun _ _ => True) s := by
  induction h with
  | start => exact .start
  | next op _ h1 _ h3 ih => exact .next op ih h1 trivial h3

end Foxxll.Store
