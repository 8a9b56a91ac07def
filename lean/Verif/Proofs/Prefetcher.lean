/-
Invariant of the prefetcher.
-/
import Verif.Model.Prefetcher

set_option linter.unusedSimpArgs false

namespace Foxxll.Prefetch

variable {α : Type}

@[simp] theorem upd_same {β : Type} (f : Nat → β) (k : Nat) (v : β) : upd f k v k = v := by simp [upd]
theorem upd_ne {β : Type} (f : Nat → β) {k j : Nat} (v : β) (h : j ≠ k) : upd f k v j = f j := by simp [upd, h]

/-- The stages in which the handler has run. -/
def Stage.on : Stage → Bool
  | .issued | .copied => false
  | .signalled | .ready => true

structure Inv (c : Cfg α) (s : St α) : Prop where
  nr : s.nextread ≤ c.seqLength ∧ c.nread ≤ s.nextread
  nrEq : s.nextread = min c.seqLength (c.nread + (s.returned.length - s.held.length))
  hlen : s.held.length ≤ s.returned.length
  sub : s.submitted = c.seq.take s.nextread
  /-- blocks never submitted -/
  un : ∀ k, k ∉ s.submitted → s.pref k = none ∧ s.compl k = false
  /-- submitted blocks: assigned to a buffer and not yet given back, or given back -/
  act : ∀ k ∈ s.submitted, ∃ b, b < c.nread ∧ s.pref k = some b ∧
    ((k ∈ s.returned.map (·.1) ∧ k ∉ s.held.map (·.1)) ∨ ∃ st, s.reqs b = some (k, st))
  req : ∀ b n st, s.reqs b = some (n, st) → n ∈ s.submitted ∧ s.pref n = some b ∧ b < c.nread ∧
    s.compl n = st.on ∧ (st ≠ .issued → s.bufs b = some (c.disk n))
  held : ∀ k b, (k, b) ∈ s.held → s.pref k = some b ∧ (∃ st, st.on = true ∧ s.reqs b = some (k, st))
  heldSub : s.held.Sublist s.returned
  ret : s.returned.map (·.1) = List.range s.returned.length
  wait : (s.waiting = none ∧ s.nextconsume = s.returned.length) ∨
    (s.waiting = some s.returned.length ∧ s.nextconsume = s.returned.length + 1)
  nc : s.nextconsume ≤ c.seqLength

/-- What the prefetch order must satisfy. -/
structure Good (c : Cfg α) : Prop where
  perm : c.seq.Perm (List.range c.seqLength)
  pos : 0 < c.seqLength
  bufs : 0 < c.bufSize

theorem Good.len {c : Cfg α} (h : Good c) : c.seq.length = c.seqLength := by
  simpa using h.perm.length_eq

theorem Good.nodup {c : Cfg α} (h : Good c) : c.seq.Nodup := h.perm.nodup_iff.2 List.nodup_range

theorem Good.lt {c : Cfg α} (h : Good c) {k : Nat} (hk : k ∈ c.seq) : k < c.seqLength :=
  List.mem_range.1 (h.perm.mem_iff.1 hk)

theorem not_mem_take {c : Cfg α} (h : Good c) {i n : Nat} (hi : c.seq[i]? = some n) : n ∉ c.seq.take i := by
  intro hm
  obtain ⟨hlt, he⟩ := List.getElem?_eq_some_iff.1 hi
  have hn := h.nodup
  rw [← List.take_append_drop i c.seq, List.nodup_append] at hn
  refine hn.2.2 n hm n ?_ rfl
  rw [List.drop_eq_getElem_cons hlt, he]; simp

theorem take_next {l : List Nat} {i n : Nat} (hi : l[i]? = some n) : l.take (i + 1) = l.take i ++ [n] := by
  rw [List.take_add_one, hi]; rfl

/-- Facts kept by the constructor's loop before step `i`. -/
structure Pre (c : Cfg α) (i : Nat) (s : St α) : Prop where
  sub : s.submitted = c.seq.take i
  un : ∀ k, k ∉ s.submitted → s.pref k = none
  act : ∀ k ∈ s.submitted, ∃ b, b < i ∧ s.pref k = some b ∧ s.reqs b = some (k, .issued)
  req : ∀ b n st, s.reqs b = some (n, st) → n ∈ s.submitted ∧ s.pref n = some b ∧ b < i ∧ st = .issued

theorem initLoop_spec {c : Cfg α} (hg : Good c) : ∀ (k i : Nat) (s : St α), Pre c i s → i + k ≤ c.seqLength →
    ∃ s', initLoop c k i s = .ok s' ∧ Pre c (i + k) s' ∧
      s'.nextread = s.nextread ∧ s'.nextconsume = s.nextconsume ∧ s'.compl = s.compl ∧ s'.waiting = s.waiting ∧
      s'.returned = s.returned ∧ s'.held = s.held := by
  intro k
  induction k with
  | zero => intro i s hp _; exact ⟨s, rfl, hp, rfl, rfl, rfl, rfl, rfl, rfl⟩
  | succ k ih =>
    intro i s hp hle
    have hi : i < c.seq.length := by rw [hg.len]; omega
    have hget : c.seq[i]? = some c.seq[i] := List.getElem?_eq_getElem hi
    have hlt : c.seq[i] < c.seqLength := hg.lt (List.getElem_mem hi)
    have hnew : c.seq[i] ∉ s.submitted := by rw [hp.sub]; exact not_mem_take hg hget
    have hp' : Pre c (i + 1) (submit s c.seq[i] i) := by
      constructor
      · simp only [submit]; rw [hp.sub, take_next hget]
      · intro k hk
        simp only [submit, List.mem_append, List.mem_singleton, not_or] at hk ⊢
        rw [upd_ne _ _ hk.2]; exact hp.un k hk.1
      · intro k hk
        simp only [submit, List.mem_append, List.mem_singleton] at hk ⊢
        by_cases hkn : k = c.seq[i]
        · subst hkn; exact ⟨i, by omega, upd_same _ _ _, upd_same _ _ _⟩
        · have hk' : k ∈ s.submitted := by
            rcases hk with h | h
            · exact h
            · exact absurd h hkn
          obtain ⟨b, h1, h2, h3⟩ := hp.act k hk'
          exact ⟨b, by omega, by rw [upd_ne _ _ hkn]; exact h2, by rw [upd_ne _ _ (by omega)]; exact h3⟩
      · intro b n st hr
        simp only [submit] at hr ⊢
        by_cases hb : b = i
        · subst hb
          rw [upd_same] at hr
          simp only [Option.some.injEq, Prod.mk.injEq] at hr
          obtain ⟨rfl, rfl⟩ := hr
          exact ⟨by simp, upd_same _ _ _, by omega, rfl⟩
        · rw [upd_ne _ _ hb] at hr
          obtain ⟨h1, h2, h3, h4⟩ := hp.req b n st hr
          have hne : n ≠ c.seq[i] := by rintro rfl; exact hnew h1
          exact ⟨by simp [h1], by rw [upd_ne _ _ hne]; exact h2, by omega, h4⟩
    obtain ⟨s', h1, h2, h3⟩ := ih (i + 1) _ hp' (by omega)
    refine ⟨s', ?_, by rw [Nat.add_assoc, Nat.add_comm 1] at h2; exact h2, h3⟩
    simp only [initLoop, hget, if_pos hlt]
    exact h1

theorem init_spec {c : Cfg α} (hg : Good c) : ∃ s, init c = .ok s ∧ Inv c s := by
  unfold init
  rw [if_pos ⟨hg.pos, hg.bufs⟩]
  have hnr : c.nread ≤ c.seqLength := Nat.min_le_right _ _
  obtain ⟨s', h1, hp, e1, e2, e3, e4, e5, e6⟩ := initLoop_spec hg c.nread 0
    { nextread := c.nread, nextconsume := 0, bufs := fun _ => none, reqs := fun _ => none,
      compl := fun _ => false, pref := fun _ => none, waiting := none, submitted := [],
      returned := [], held := [] } ⟨by simp, by simp, by simp, by simp⟩ (by omega)
  refine ⟨s', h1, ?_⟩
  simp only at e1 e2 e3 e4 e5 e6
  rw [Nat.zero_add] at hp
  constructor
  · omega
  · rw [e1, e5, e6]; simp; omega
  · rw [e5, e6]; simp
  · rw [e1]; exact hp.sub
  · intro k hk; exact ⟨hp.un k hk, by rw [e3]⟩
  · intro k hk
    obtain ⟨b, h1, h2, h3⟩ := hp.act k hk
    exact ⟨b, h1, h2, .inr ⟨_, h3⟩⟩
  · intro b n st hr
    obtain ⟨h1, h2, h3, h4⟩ := hp.req b n st hr
    subst h4
    exact ⟨h1, h2, h3, by rw [e3]; rfl, fun h => absurd rfl h⟩
  · intro k b hk; rw [e6] at hk; simp at hk
  · rw [e5, e6]; exact List.Sublist.refl _
  · rw [e5]; simp
  · left; rw [e4, e2, e5]; simp
  · omega

/-- Releasing buffer `b` held for block `k` and submitting the next read. -/
theorem refill_spec {c : Cfg α} (hg : Good c) {s : St α} (hi : Inv c s) (hw : s.waiting = none) {k b : Nat}
    (hkb : (k, b) ∈ s.held) : ∃ s', refill c s b = .ok s' ∧ Inv c s' ∧ s'.waiting = none ∧
      s'.nextconsume = s.nextconsume ∧ s'.returned = s.returned := by
  obtain ⟨hpk, st, hst, hrb⟩ := hi.held k b hkb
  obtain ⟨_, _, hbn, _, _⟩ := hi.req b k st hrb
  have huniq : ∀ k', (k', b) ∈ s.held → k' = k := by
    intro k' h
    obtain ⟨_, st', _, hr'⟩ := hi.held k' b h
    rw [hrb] at hr'
    simp only [Option.some.injEq, Prod.mk.injEq] at hr'
    exact hr'.1.symm
  have hretn : (s.returned.map (·.1)).Nodup := by rw [hi.ret]; exact List.nodup_range
  have hheldn : (s.held.map (·.1)).Nodup := hretn.sublist (hi.heldSub.map _)
  -- the filtered list has exactly one element less
  have hflen : (s.held.filter (fun p => p.2 != b)).length + 1 = s.held.length := by
    have hx : s.held.filter (fun p => p.2 != b) = s.held.erase (k, b) := by
      have hn : s.held.Nodup := by
        rw [List.Nodup, List.pairwise_map] at hheldn
        exact hheldn.imp (fun h h' => h (by rw [h']))
      rw [hn.erase_eq_filter]
      apply List.filter_congr
      intro p hp
      by_cases hpb : p.2 = b
      · have : p.1 = k := huniq p.1 (by rw [← hpb]; exact hp)
        have hpe : p = (k, b) := by rw [← this, ← hpb]
        rw [hpe]; simp
      · have hpe : p ≠ (k, b) := by rintro rfl; exact hpb rfl
        have h1 : (p.2 != b) = true := by simpa using hpb
        have h2 : (p != (k, b)) = true := by simpa using hpe
        rw [h1, h2]
    rw [hx, List.length_erase_of_mem hkb]
    have := List.length_pos_of_mem hkb
    omega
  have hret' : k ∈ s.returned.map (·.1) := by
    have := hi.heldSub.subset hkb
    exact List.mem_map_of_mem (f := (·.1)) this
  have hknot : k ∉ (s.held.filter (fun p => p.2 != b)).map (·.1) := by
    intro h
    obtain ⟨p, hp, hpk'⟩ := List.mem_map.1 h
    rw [List.mem_filter] at hp
    have hp2 : p = (k, b) := by
      have hpp : (p.1, p.2) ∈ s.held := hp.1
      obtain ⟨h1, _⟩ := hi.held p.1 p.2 hpp
      rw [hpk', hpk, Option.some.injEq] at h1
      rw [← hpk', h1]
    rw [hp2] at hp
    simp at hp
  have hother : ∀ k', k' ≠ k → k' ∉ s.held.map (·.1) → k' ∉ (s.held.filter (fun p => p.2 != b)).map (·.1) := by
    intro k' _ h h'
    obtain ⟨p, hp, hpk'⟩ := List.mem_map.1 h'
    exact h (by rw [← hpk']; exact List.mem_map_of_mem (List.mem_filter.1 hp).1)
  -- state after the release
  let s1 : St α := { s with reqs := upd s.reqs b none, held := s.held.filter (fun p => p.2 != b) }
  have hact1 : ∀ k' ∈ s.submitted, ∃ b', b' < c.nread ∧ s.pref k' = some b' ∧
      ((k' ∈ s.returned.map (·.1) ∧ k' ∉ s1.held.map (·.1)) ∨ (b' ≠ b ∧ ∃ st, s.reqs b' = some (k', st))) := by
    intro k' hk'
    obtain ⟨b', h1, h2, h3⟩ := hi.act k' hk'
    refine ⟨b', h1, h2, ?_⟩
    rcases h3 with ⟨h3, h4⟩ | ⟨st', h3⟩
    · left
      refine ⟨h3, ?_⟩
      by_cases hkk : k' = k
      · subst hkk; exact hknot
      · exact hother k' hkk h4
    · by_cases hbb : b' = b
      · subst hbb
        rw [hrb] at h3
        simp only [Option.some.injEq, Prod.mk.injEq] at h3
        obtain ⟨rfl, _⟩ := h3
        exact .inl ⟨hret', hknot⟩
      · exact .inr ⟨hbb, st', h3⟩
  have hheld1 : ∀ k' b', (k', b') ∈ s1.held → b' ≠ b ∧ s.pref k' = some b' ∧
      (∃ st, st.on = true ∧ s.reqs b' = some (k', st)) := by
    intro k' b' h
    simp only [s1, List.mem_filter] at h
    exact ⟨by simpa using h.2, hi.held k' b' h.1⟩
  have hwait : s.nextconsume = s.returned.length := by
    rcases hi.wait with h | h
    · exact h.2
    · rw [hw] at h; simp at h
  have hheld1len : s1.held.length + 1 = s.held.length := hflen
  by_cases hnr : s.nextread < c.seqLength
  · have hlt : s.nextread < c.seq.length := by rw [hg.len]; exact hnr
    have hget : c.seq[s.nextread]? = some c.seq[s.nextread] := List.getElem?_eq_getElem hlt
    have hnlt : c.seq[s.nextread] < c.seqLength := hg.lt (List.getElem_mem hlt)
    have hnew : c.seq[s.nextread] ∉ s.submitted := by rw [hi.sub]; exact not_mem_take hg hget
    have hcn : s.compl c.seq[s.nextread] = false := (hi.un _ hnew).2
    refine ⟨submit { s1 with nextread := s1.nextread + 1 } c.seq[s.nextread] b, ?_, ?_, hw, rfl, rfl⟩
    · simp only [refill, if_pos hnr, hget, if_pos hnlt, hcn, s1]; rfl
    · constructor
      · simp only [submit, s1]; have := hi.nr; omega
      · have := hi.nrEq; have := hi.hlen
        simp only [submit]
        show s.nextread + 1 = min c.seqLength (c.nread + (s.returned.length - s1.held.length))
        omega
      · have := hi.hlen
        simp only [submit]
        show s1.held.length ≤ s.returned.length
        omega
      · simp only [submit, s1]
        rw [hi.sub, take_next hget]
      · intro k' hk'
        simp only [submit, s1, List.mem_append, List.mem_singleton, not_or] at hk' ⊢
        rw [upd_ne _ _ hk'.2]; exact hi.un k' hk'.1
      · intro k' hk'
        simp only [submit, s1, List.mem_append, List.mem_singleton] at hk' ⊢
        by_cases hkn : k' = c.seq[s.nextread]
        · subst hkn
          exact ⟨b, hbn, upd_same _ _ _, .inr ⟨_, upd_same _ _ _⟩⟩
        · have hk'' : k' ∈ s.submitted := by
            rcases hk' with h | h
            · exact h
            · exact absurd h hkn
          obtain ⟨b', h1, h2, h3⟩ := hact1 k' hk''
          refine ⟨b', h1, by rw [upd_ne _ _ hkn]; exact h2, ?_⟩
          rcases h3 with h3 | ⟨hbb, st', h3⟩
          · exact .inl h3
          · exact .inr ⟨st', by rw [upd_ne _ _ hbb, upd_ne _ _ hbb]; exact h3⟩
      · intro b' n st' hr
        simp only [submit, s1] at hr ⊢
        by_cases hbb : b' = b
        · subst hbb
          rw [upd_same] at hr
          simp only [Option.some.injEq, Prod.mk.injEq] at hr
          obtain ⟨rfl, rfl⟩ := hr
          exact ⟨by simp, upd_same _ _ _, hbn, hcn, fun h => absurd rfl h⟩
        · rw [upd_ne _ _ hbb, upd_ne _ _ hbb] at hr
          obtain ⟨h1, h2, h3⟩ := hi.req b' n st' hr
          have hne : n ≠ c.seq[s.nextread] := by rintro rfl; exact hnew h1
          exact ⟨by simp [h1], by rw [upd_ne _ _ hne]; exact h2, h3⟩
      · intro k' b' h
        obtain ⟨hbb, h1, st', h2, h3⟩ := hheld1 k' b' h
        have hsub : k' ∈ s.submitted := (hi.req b' k' st' h3).1
        have hne : k' ≠ c.seq[s.nextread] := by rintro rfl; exact hnew hsub
        simp only [submit, s1]
        exact ⟨by rw [upd_ne _ _ hne]; exact h1, st', h2, by rw [upd_ne _ _ hbb, upd_ne _ _ hbb]; exact h3⟩
      · exact (List.filter_sublist).trans hi.heldSub
      · exact hi.ret
      · exact hi.wait
      · exact hi.nc
  · refine ⟨s1, ?_, ?_, hw, rfl, rfl⟩
    · simp only [refill, if_neg hnr, s1]
    · constructor
      · exact hi.nr
      · have := hi.nrEq; have := hi.hlen; have := hi.nr
        show s.nextread = _
        simp only [s1]
        simp only [s1] at hheld1len
        omega
      · have := hi.hlen
        show s1.held.length ≤ s.returned.length
        omega
      · exact hi.sub
      · exact hi.un
      · intro k' hk'
        obtain ⟨b', h1, h2, h3⟩ := hact1 k' hk'
        refine ⟨b', h1, h2, ?_⟩
        rcases h3 with h3 | ⟨hbb, st', h3⟩
        · exact .inl h3
        · exact .inr ⟨st', by simp only [s1]; rw [upd_ne _ _ hbb]; exact h3⟩
      · intro b' n st' hr
        simp only [s1] at hr ⊢
        by_cases hbb : b' = b
        · subst hbb
          rw [upd_same] at hr; simp at hr
        · rw [upd_ne _ _ hbb] at hr
          exact hi.req b' n st' hr
      · intro k' b' h
        obtain ⟨hbb, h1, st', h2, h3⟩ := hheld1 k' b' h
        exact ⟨h1, st', h2, by simp only [s1]; rw [upd_ne _ _ hbb]; exact h3⟩
      · exact (List.filter_sublist).trans hi.heldSub
      · exact hi.ret
      · exact hi.wait
      · exact hi.nc

theorem beginWait_inv {c : Cfg α} {s : St α} (hi : Inv c s) (hw : s.waiting = none) (hn : s.nextconsume < c.seqLength) :
    Inv c (beginWait s) := by
  have hwait : s.nextconsume = s.returned.length := by
    rcases hi.wait with h | h
    · exact h.2
    · rw [hw] at h; simp at h
  refine ⟨hi.nr, hi.nrEq, hi.hlen, hi.sub, hi.un, hi.act, hi.req, hi.held, hi.heldSub, hi.ret, ?_, ?_⟩
  · right; simp only [beginWait]; rw [hwait]; exact ⟨rfl, rfl⟩
  · simp only [beginWait]; omega

/-- The block the consumer waits for, once its switch is on. -/
theorem handOut_inv {c : Cfg α} {s : St α} (hi : Inv c s) {k : Nat} (hw : s.waiting = some k) (hc : s.compl k = true) :
    ∃ b, s.pref k = some b ∧ b < c.nread ∧ k = s.returned.length ∧ s.bufs b = some (c.disk k) ∧
      handOut c s k = .ok { s with waiting := none, returned := s.returned ++ [(k, b)], held := s.held ++ [(k, b)] } ∧
      Inv c { s with waiting := none, returned := s.returned ++ [(k, b)], held := s.held ++ [(k, b)] } := by
  have hk : k = s.returned.length ∧ s.nextconsume = s.returned.length + 1 := by
    rcases hi.wait with h | h
    · rw [hw] at h; simp at h
    · rw [hw] at h; simp only [Option.some.injEq] at h; exact h
  have hsub : k ∈ s.submitted := by
    by_cases h : k ∈ s.submitted
    · exact h
    · have := (hi.un k h).2; rw [hc] at this; simp at this
  have hnr : k ∉ s.returned.map (·.1) := by
    rw [hi.ret, List.mem_range]; omega
  obtain ⟨b, hb, hpb, hact⟩ := hi.act k hsub
  have hreq : ∃ st, s.reqs b = some (k, st) := by
    rcases hact with ⟨h, _⟩ | h
    · exact absurd h hnr
    · exact h
  obtain ⟨st, hreq⟩ := hreq
  obtain ⟨_, _, _, hon, hbuf⟩ := hi.req b k st hreq
  rw [hc] at hon
  have hst : st ≠ .issued := by rintro rfl; simp [Stage.on] at hon
  refine ⟨b, hpb, hb, hk.1, hbuf hst, by simp [handOut, hpb, hb], ?_⟩
  constructor
  · exact hi.nr
  · have := hi.nrEq; have := hi.hlen
    simp only [List.length_append, List.length_singleton]
    show s.nextread = _
    omega
  · have := hi.hlen
    simp only [List.length_append, List.length_singleton]; omega
  · exact hi.sub
  · exact hi.un
  · intro k' hk'
    obtain ⟨b', h1, h2, h3⟩ := hi.act k' hk'
    refine ⟨b', h1, h2, ?_⟩
    by_cases hkk : k' = k
    · subst hkk
      rw [hpb] at h2
      simp only [Option.some.injEq] at h2
      subst h2
      exact .inr ⟨st, hreq⟩
    · rcases h3 with ⟨h3, h4⟩ | h3
      · left
        simp only [List.map_append, List.mem_append, List.map_cons, List.map_nil, List.mem_singleton, not_or]
        exact ⟨.inl h3, h4, hkk⟩
      · exact .inr h3
  · exact hi.req
  · intro k' b' h
    simp only [List.mem_append, List.mem_singleton, Prod.mk.injEq] at h
    rcases h with h | ⟨rfl, rfl⟩
    · exact hi.held k' b' h
    · exact ⟨hpb, st, hon.symm, hreq⟩
  · exact List.Sublist.append hi.heldSub (List.Sublist.refl _)
  · simp only [List.map_append, List.length_append, List.length_singleton, List.range_succ, hi.ret]
    simp [hk.1]
  · left
    simp only [List.length_append, List.length_singleton]
    exact ⟨trivial, hk.2⟩
  · exact hi.nc

/-- Device steps only move the request of one buffer forward. -/
theorem device_inv {c : Cfg α} {s : St α} (hi : Inv c s) {b n : Nat} {st st' : Stage} (hr : s.reqs b = some (n, st))
    (bufs : Nat → Option α) (compl : Nat → Bool)
    (hb : ∀ b', b' ≠ b → bufs b' = s.bufs b') (hbn : st' ≠ .issued → bufs b = some (c.disk n))
    (hc : ∀ k, k ≠ n → compl k = s.compl k) (hcn : compl n = st'.on) (hmono : st.on = true → st'.on = true) :
    Inv c { s with bufs := bufs, compl := compl, reqs := upd s.reqs b (some (n, st')) } := by
  obtain ⟨hn, hpn, hbl, hon, _⟩ := hi.req b n st hr
  constructor
  · exact hi.nr
  · exact hi.nrEq
  · exact hi.hlen
  · exact hi.sub
  · intro k hk
    have hne : k ≠ n := by rintro rfl; exact hk hn
    simp only
    rw [hc k hne]; exact hi.un k hk
  · intro k hk
    obtain ⟨b', h1, h2, h3⟩ := hi.act k hk
    refine ⟨b', h1, h2, ?_⟩
    rcases h3 with h3 | ⟨st2, h3⟩
    · exact .inl h3
    · right
      simp only
      by_cases hbb : b' = b
      · subst hbb
        rw [hr] at h3
        simp only [Option.some.injEq, Prod.mk.injEq] at h3
        obtain ⟨rfl, _⟩ := h3
        exact ⟨st', upd_same _ _ _⟩
      · exact ⟨st2, by rw [upd_ne _ _ hbb]; exact h3⟩
  · intro b' n' st2 h
    simp only at h ⊢
    by_cases hbb : b' = b
    · subst hbb
      rw [upd_same] at h
      simp only [Option.some.injEq, Prod.mk.injEq] at h
      obtain ⟨rfl, rfl⟩ := h
      exact ⟨hn, hpn, hbl, hcn, hbn⟩
    · rw [upd_ne _ _ hbb] at h
      obtain ⟨h1, h2, h3, h4, h5⟩ := hi.req b' n' st2 h
      have hne : n' ≠ n := by
        rintro rfl
        rw [hpn, Option.some.injEq] at h2
        exact hbb h2.symm
      rw [hc n' hne, hb b' hbb]
      exact ⟨h1, h2, h3, h4, h5⟩
  · intro k b' h
    obtain ⟨h1, st2, h2, h3⟩ := hi.held k b' h
    refine ⟨h1, ?_⟩
    simp only
    by_cases hbb : b' = b
    · subst hbb
      rw [hr] at h3
      simp only [Option.some.injEq, Prod.mk.injEq] at h3
      obtain ⟨rfl, rfl⟩ := h3
      exact ⟨st', hmono h2, upd_same _ _ _⟩
    · exact ⟨st2, h2, by rw [upd_ne _ _ hbb]; exact h3⟩
  · exact hi.heldSub
  · exact hi.ret
  · exact hi.wait
  · exact hi.nc

/-- Every legal step other than a spurious wake-up preserves the invariant and has no undefined
behaviour or failing assert. -/
theorem step_inv {c : Cfg α} (hg : Good c) {s : St α} (hi : Inv c s) (op : Op) (hl : Legal c s op)
    (hsp : op ≠ .spurious) :
    step c s op ≠ .ub ∧ step c s op ≠ .assertFail ∧ ∀ s', step c s op = .ok s' → Inv c s' := by
  cases op with
  | pull =>
    simp only [Legal] at hl
    simp only [step]
    split
    · simp
    · rename_i hw
      have hw' : s.waiting = none := by simpa using hw
      refine ⟨by simp, by simp, ?_⟩
      intro s' h
      simp only [Res.ok.injEq] at h
      subst h
      exact beginWait_inv hi hw' hl
  | consumed b =>
    obtain ⟨k, hk⟩ := hl
    simp only [step]
    split
    · simp
    · rename_i hw
      have hw' : s.waiting = none := by simpa using hw
      obtain ⟨hpk, st, hst, hrb⟩ := hi.held k b hk
      have hbn := (hi.req b k st hrb).2.2.1
      rw [if_neg (by omega)]
      obtain ⟨s1, h1, h2, h3, h4, h5⟩ := refill_spec hg hi hw' hk
      rw [h1]
      have hgo : ∀ s', (if c.seqLength ≤ s1.nextconsume then (Res.ok s1 : Res (St α)) else .ok (beginWait s1)) = .ok s' →
          Inv c s' := by
        intro s' h
        split at h
        · simp only [Res.ok.injEq] at h; subst h; exact h2
        · rename_i hlt
          simp only [Res.ok.injEq] at h; subst h
          exact beginWait_inv h2 h3 (by omega)
      have hgo2 : (if c.seqLength ≤ s1.nextconsume then (Res.ok s1 : Res (St α)) else .ok (beginWait s1)) ≠ .ub ∧
          (if c.seqLength ≤ s1.nextconsume then (Res.ok s1 : Res (St α)) else .ok (beginWait s1)) ≠ .assertFail := by
        split <;> simp
      split
      · exact ⟨hgo2.1, hgo2.2, hgo⟩
      · exact ⟨hgo2.1, hgo2.2, hgo⟩
      · simp
  | wake =>
    simp only [step]
    cases hw : s.waiting with
    | none => simp
    | some k =>
      simp only
      by_cases hc : s.compl k = true
      · obtain ⟨b, _, _, _, _, h5, h6⟩ := handOut_inv hi hw hc
        rw [if_pos hc, h5]
        refine ⟨by simp, by simp, ?_⟩
        intro s' h
        simp only [Res.ok.injEq] at h; subst h; exact h6
      · rw [if_neg hc]; simp
  | spurious => exact absurd rfl hsp
  | copy b =>
    simp only [step]
    split
    · rename_i n hr
      refine ⟨by simp, by simp, ?_⟩
      intro s' h
      simp only [Res.ok.injEq] at h; subst h
      have hcn := (hi.req b n _ hr).2.2.2.1
      exact device_inv hi hr _ s.compl (fun b' h => upd_ne _ _ h) (fun _ => upd_same _ _ _) (fun _ _ => rfl)
        (by rw [hcn]; rfl) (by simp [Stage.on])
    · simp
  | signal b =>
    simp only [step]
    split
    · rename_i n hr
      refine ⟨by simp, by simp, ?_⟩
      intro s' h
      simp only [Res.ok.injEq] at h; subst h
      have hbuf := (hi.req b n _ hr).2.2.2.2
      exact device_inv hi hr s.bufs _ (fun _ _ => rfl) (fun _ => hbuf (by simp)) (fun k h => upd_ne _ _ h)
        (upd_same _ _ _) (by simp [Stage.on])
    · simp
  | finish b =>
    simp only [step]
    split
    · rename_i n hr
      refine ⟨by simp, by simp, ?_⟩
      intro s' h
      simp only [Res.ok.injEq] at h; subst h
      have hbuf := (hi.req b n _ hr).2.2.2.2
      have hcn := (hi.req b n _ hr).2.2.2.1
      exact device_inv hi hr s.bufs s.compl (fun _ _ => rfl) (fun _ => hbuf (by simp)) (fun _ _ => rfl)
        (by rw [hcn]; rfl) (by simp [Stage.on])
    · simp

theorem reach_inv {c : Cfg α} (hg : Good c) {s : St α} (h : Reach c false s) : Inv c s := by
  induction h with
  | start h =>
    obtain ⟨s', h1, h2⟩ := init_spec hg
    rw [h] at h1
    simp only [Res.ok.injEq] at h1
    subst h1
    exact h2
  | next op _ hl hsp hs ih =>
    have hne : op ≠ .spurious := by rintro rfl; simp at hsp
    exact (step_inv hg ih op hl hne).2.2 _ hs

theorem refill_shape {c : Cfg α} {s s1 : St α} {b : Nat} (h : refill c s b = .ok s1) :
    s1.returned = s.returned ∧ ∀ k ∈ s.submitted, k ∈ s1.submitted := by
  unfold refill at h
  simp only at h
  split at h
  · split at h
    · exact absurd h (by simp)
    · split at h
      · split at h
        · exact absurd h (by simp)
        · simp only [Res.ok.injEq] at h
          subst h
          exact ⟨rfl, fun k hk => by simp [submit, hk]⟩
      · exact absurd h (by simp)
  · simp only [Res.ok.injEq] at h
    subst h
    exact ⟨rfl, fun _ hk => hk⟩

theorem returned_submitted {c : Cfg α} (hg : Good c) {s : St α} (h : Reach c false s) :
    ∀ k ∈ s.returned.map (·.1), k ∈ s.submitted := by
  induction h with
  | @start s0 h =>
    have hi : Inv c s0 := reach_inv hg (Reach.start h)
    intro k hk
    exfalso
    have hn : s0.returned = [] := by
      unfold init at h
      rw [if_pos ⟨hg.pos, hg.bufs⟩] at h
      obtain ⟨s', h1, hp, e1, e2, e3, e4, e5, e6⟩ := initLoop_spec hg c.nread 0
        { nextread := c.nread, nextconsume := 0, bufs := fun _ => none, reqs := fun _ => none,
          compl := fun _ => false, pref := fun _ => none, waiting := none, submitted := [],
          returned := [], held := [] } ⟨by simp, by simp, by simp, by simp⟩
          (by have : c.nread ≤ c.seqLength := Nat.min_le_right _ _; omega)
      rw [h] at h1
      simp only [Res.ok.injEq] at h1
      subst h1
      exact e5
    rw [hn] at hk; simp at hk
  | @next s0 s1 op hr hl hsp hs ih =>
    have hi := reach_inv hg hr
    cases op with
    | pull =>
      simp only [step] at hs
      split at hs
      · exact absurd hs (by simp)
      · split at hs
        · simp only [Res.ok.injEq] at hs; subst hs; exact ih
        · exact absurd hs (by simp)
    | consumed b =>
      simp only [step] at hs
      split at hs
      · exact absurd hs (by simp)
      · split at hs
        · exact absurd hs (by simp)
        · have key : ∀ s1, (match refill c s0 b with
              | .ok s' => if c.seqLength ≤ s'.nextconsume then .ok s' else .ok (beginWait s')
              | r => r) = (Res.ok s1 : Res (St α)) → ∀ k ∈ s1.returned.map (·.1), k ∈ s1.submitted := by
            intro s1 h
            cases hrf : refill c s0 b with
            | ok s' =>
              rw [hrf] at h
              obtain ⟨h1, h2⟩ := refill_shape hrf
              simp only at h
              split at h
              · simp only [Res.ok.injEq] at h; subst h
                intro k hk; rw [h1] at hk; exact h2 k (ih k hk)
              · simp only [Res.ok.injEq] at h; subst h
                intro k hk
                simp only [beginWait] at hk ⊢
                rw [h1] at hk; exact h2 k (ih k hk)
            | blocked => rw [hrf] at h; simp at h
            | ub => rw [hrf] at h; simp at h
            | assertFail => rw [hrf] at h; simp at h
          split at hs
          · exact key _ hs
          · exact key _ hs
          · exact absurd hs (by simp)
    | wake =>
      simp only [step] at hs
      cases hw : s0.waiting with
      | none => rw [hw] at hs; simp at hs
      | some k =>
        rw [hw] at hs
        simp only at hs
        by_cases hc : s0.compl k = true
        · obtain ⟨b, _, _, _, _, h5, _⟩ := handOut_inv hi hw hc
          rw [if_pos hc, h5] at hs
          simp only [Res.ok.injEq] at hs; subst hs
          intro k' hk'
          simp only [List.map_append, List.mem_append, List.map_cons, List.map_nil, List.mem_singleton] at hk' ⊢
          rcases hk' with hk' | rfl
          · exact ih k' hk'
          · by_cases h : k' ∈ s0.submitted
            · exact h
            · have := (hi.un k' h).2; rw [hc] at this; simp at this
        · rw [if_neg hc] at hs; simp at hs
    | spurious => simp at hsp
    | copy b =>
      simp only [step] at hs
      split at hs
      · simp only [Res.ok.injEq] at hs; subst hs; exact ih
      · exact absurd hs (by simp)
    | signal b =>
      simp only [step] at hs
      split at hs
      · simp only [Res.ok.injEq] at hs; subst hs; exact ih
      · exact absurd hs (by simp)
    | finish b =>
      simp only [step] at hs
      split at hs
      · simp only [Res.ok.injEq] at hs; subst hs; exact ih
      · exact absurd hs (by simp)

end Foxxll.Prefetch
