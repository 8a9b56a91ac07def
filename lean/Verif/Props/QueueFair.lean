/-
Property C108: no request waits forever.
-/
import Verif.Proofs.QueueFair
import Verif.Props.Queues

namespace Foxxll.Queue

/-! In full: while a request is queued, only boundedly many requests that were submitted later are started before it. -/

/-- **C108 is false** for reads in the default kind of queue: a read submitted first (and completely, `nsig = 0`) may be overtaken by
any number of writes, without cancellations. -/
theorem C108_false (n : Nat) : ∃ s, Reach .twoQ NoCancel s ∧ s.sub.head? = some (0, false) ∧ s.nsig = 0 ∧ s.spc = .none ∧
    0 ∉ s.started ∧ s.served.length = n ∧ ∀ r ∈ s.served, (r, true) ∈ s.sub := by
  refine ⟨hungry n, hungry_reach (fun s op h r w => h r w) n, rfl, rfl, rfl, ?_, ?_, ?_⟩
  · simp only [hungry]
    intro h
    obtain ⟨i, _, hi⟩ := List.mem_range'.1 h
    omega
  · simp [hungry]
  · intro r hr
    simp only [hungry] at hr ⊢
    obtain ⟨i, h1, h2⟩ := List.mem_range'.1 hr
    simp only [List.mem_cons, List.mem_map]
    exact .inr ⟨r, List.mem_range'.2 ⟨i, by omega, h2⟩, rfl⟩

/-- **C108**, partial, default kind of queue: at most one request submitted later is started before a write; before it is started,
too.  (Reads are overtaken only by writes: `C23_fifo`.) -/
theorem C108_partial {s : St} (h : Reach .twoQ Any s) {a b : List (Nat × Bool)} {v : Nat} (hs : s.sub = a ++ (v, true) :: b)
    {p : List Nat} (hp : (∃ q, s.started = p ++ v :: q) ∨ (p = s.started ∧ v ∉ s.started ∧ v ∉ s.cancelled)) :
    (p.filter (fun x => (b.map (·.1)).contains x)).length ≤ 1 := by
  rcases hp with ⟨q, hq⟩ | ⟨rfl, h1, h2⟩
  · exact (reach_over h).fin a v b p q hs hq
  · exact ((reach_over h).pend a v b hs h1 h2).1

/-- **C108**, partial, single queue: no request submitted later is started before. -/
theorem C108_one_partial {s : St} (h : Reach .oneQ Any s) {a b : List (Nat × Bool)} {v : Nat} {w : Bool} (hs : s.sub = a ++ (v, w) :: b)
    {p : List Nat} (hp : (∃ q, s.started = p ++ v :: q) ∨ (p = s.started ∧ v ∉ s.started ∧ v ∉ s.cancelled)) :
    ∀ x ∈ p, x ∉ b.map (·.1) := by
  intro x hx
  have ho := reach_ord h
  have hd := due_one h
  unfold due at hd
  have hsub : subs (toW .oneQ) s = s.sub.map (·.1) := subs_one s
  obtain ⟨p1, p2, rfl⟩ := List.append_of_mem hx
  have hxs : x ∈ s.started := by
    rcases hp with ⟨q, hq⟩ | ⟨hq, _, _⟩
    · rw [hq]; simp
    · rw [← hq]; simp
  obtain ⟨⟨x', w'⟩, hxm, hxe⟩ := List.mem_map.1 (ho.st x hxs)
  simp only at hxe
  subst hxe
  have main : ∃ Y, (subs (toW .oneQ) s).filter (fun r => !s.cancelled.contains r) = p1 ++ x' :: Y ∧ v ∈ Y := by
    rw [hsub, hd]
    rcases hp with ⟨q, hq⟩ | ⟨hq, h1, h2⟩
    · exact ⟨p2 ++ v :: q ++ s.wq, by rw [hq]; simp, by simp⟩
    · refine ⟨p2 ++ s.wq, by rw [← hq]; simp, ?_⟩
      have : v ∈ (s.sub.map (·.1)).filter (fun r => !s.cancelled.contains r) := by
        rw [List.mem_filter]
        exact ⟨by rw [hs]; simp, by simpa using h2⟩
      rw [hd] at this
      simp only [List.mem_append] at this ⊢
      rcases this with this | this
      · exact absurd this h1
      · exact .inr this
  obtain ⟨Y, hY, hv⟩ := main
  exact order ho.nodup hY hv hs rfl hxm rfl

/-- A write overtaken by one read: the worker looked at the empty queue of the writes before the write was submitted. -/
example : ∃ s, Reach .twoQ Any s ∧ s.sub = [(0, false), (1, true), (2, false)] ∧ s.cancelled = [0] ∧ s.started = [2, 1] := by
  obtain ⟨s, h, hp⟩ := witness .twoQ (P := Any) (fun _ _ => true) (fun _ _ _ => trivial)
    [.push 0 false, .signal, .work, .cancel 0 false, .work, .work, .work, .cancelTake,
      .push 1 true, .signal, .push 2 false, .signal, .work, .work, .work, .work, .work, .work]
    (fun s => s.sub == [(0, false), (1, true), (2, false)] && s.cancelled == [0] && s.started == [2, 1]) (by decide)
  refine ⟨s, h, ?_⟩
  simpa [and_assoc] using hp

end Foxxll.Queue
