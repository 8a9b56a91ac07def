import Verif.Spec.Iostats

set_option linter.unusedSimpArgs false
set_option linter.unusedVariables false

namespace Foxxll.Iostats

/-! ### Projections of a run -/

theorem run_append (w : World) (l m : List Sec) : w.run (l ++ m) = (w.run l).run m := by
  induction l generalizing w with
  | nil => rfl
  | cons s l ih => simp only [List.cons_append, World.run]; exact ih _

theorem run_file (w : World) (l : List Sec) (f : Nat) (d : Dir) :
    (w.run l).file f d = (fileSecs f d l).foldl Side.step (w.file f d) := by
  induction l generalizing w with
  | nil => rfl
  | cons s l ih =>
    simp only [World.run]
    rw [ih]
    cases s with
    | file f' d' s' =>
      by_cases h : f' = f ∧ d' = d
      · obtain ⟨rfl, rfl⟩ := h
        simp [fileSecs, World.step]
      · have h2 : ¬ (f = f' ∧ d = d') := fun e => h ⟨e.1.symm, e.2.symm⟩
        simp [fileSecs, World.step, h, h2]
    | par => rfl
    | io => rfl
    | wait => rfl

def Par.step (p : Par) (e : Bool × Int) : Par := if e.1 then p.started e.2 else p.finished e.2
def Wait.step (p : Wait) (e : Bool × Int) : Wait := if e.1 then p.started e.2 else p.finished e.2

theorem run_par (w : World) (l : List Sec) (d : Dir) :
    (w.run l).par d = (parEvents d l).foldl Par.step (w.par d) := by
  induction l generalizing w with
  | nil => rfl
  | cons s l ih =>
    simp only [World.run]
    rw [ih]
    cases s with
    | par d' b now =>
      by_cases h : d' = d
      · subst h; simp [parEvents, World.step, Par.step]
      · have h2 : ¬ d = d' := fun e => h e.symm
        simp [parEvents, World.step, h, h2]
    | file => rfl
    | io => rfl
    | wait => rfl

theorem run_ios (w : World) (l : List Sec) : (w.run l).ios = (ioEvents l).foldl Par.step w.ios := by
  induction l generalizing w with
  | nil => rfl
  | cons s l ih => simp only [World.run]; rw [ih]; cases s <;> rfl

def isRead : WaitOp → Bool := fun o => decide (o = .read)

theorem run_wait_all (w : World) (l : List Sec) :
    (w.run l).waits.all = (waitEvents (fun _ => true) l).foldl Wait.step w.waits.all := by
  induction l generalizing w with
  | nil => rfl
  | cons s l ih =>
    simp only [World.run]; rw [ih]
    cases s with
    | wait op b now => cases op <;> cases b <;> rfl
    | _ => rfl

theorem run_wait_read (w : World) (l : List Sec) :
    (w.run l).waits.read = (waitEvents isRead l).foldl Wait.step w.waits.read := by
  induction l generalizing w with
  | nil => rfl
  | cons s l ih =>
    simp only [World.run]; rw [ih]
    cases s with
    | wait op b now => cases op <;> cases b <;> rfl
    | _ => rfl

theorem run_wait_write (w : World) (l : List Sec) :
    (w.run l).waits.write = (waitEvents (fun o => ! isRead o) l).foldl Wait.step w.waits.write := by
  induction l generalizing w with
  | nil => rfl
  | cons s l ih =>
    simp only [World.run]; rw [ih]
    cases s with
    | wait op b now => cases op <;> cases b <;> rfl
    | _ => rfl

/-! ### Sums -/

theorem sum_erase (g : Nat → Int) {r : Nat} {l : List Nat} (h : r ∈ l) :
    (l.map g).sum = g r + ((l.erase r).map g).sum := by
  induction l with
  | nil => cases h
  | cons a l ih =>
    by_cases e : a = r
    · subst e; simp
    · have hm : r ∈ l := by
        rcases List.mem_cons.1 h with h | h
        · exact absurd h.symm e
        · exact h
      rw [List.erase_cons_tail (by simpa using e)]
      simp only [List.map_cons, List.sum_cons]
      rw [ih hm]; omega

theorem length_erase {r : Nat} {l : List Nat} (h : r ∈ l) : (l.length : Int) = (l.erase r).length + 1 := by
  have := List.length_erase_of_mem h
  have h1 : 0 < l.length := List.length_pos_of_mem h
  omega

/-! ### Counts -/

theorem net_append_count (l : List FileSec) (s : FileSec) : netCount (l ++ [s]) = netCount l + netCount [s] := by
  induction l with
  | nil => simp [netCount]
  | cons a l ih => cases a <;> simp only [List.cons_append, netCount, ih] <;> omega

theorem net_append_bytes (l : List FileSec) (s : FileSec) : netBytes (l ++ [s]) = netBytes l + netBytes [s] := by
  induction l with
  | nil => simp [netBytes]
  | cons a l ih => cases a <;> simp only [List.cons_append, netBytes, ih] <;> omega

theorem fold_count (s : Side) (hs : s.count < 2 ^ 32) (l : List FileSec) :
    ((l.foldl Side.step s).count : Int) = (s.count + netCount l) % 2 ^ 32 := by
  induction l generalizing s with
  | nil => simp [netCount]; omega
  | cons a l ih =>
    simp only [List.foldl_cons]
    have hb : (s.step a).count < 2 ^ 32 := by
      cases a <;> simp only [Side.step, Side.started, Side.finished, Side.canceled, Side.opFinished] <;> omega
    rw [ih _ hb]
    cases a <;> simp only [Side.step, Side.started, Side.finished, Side.canceled, Side.opFinished, netCount] <;> omega

theorem fold_bytes (s : Side) (hs : s.bytes < 2 ^ 64) (l : List FileSec) :
    ((l.foldl Side.step s).bytes : Int) = (s.bytes + netBytes l) % 2 ^ 64 := by
  induction l generalizing s with
  | nil => simp [netBytes]; omega
  | cons a l ih =>
    simp only [List.foldl_cons]
    have hb : (s.step a).bytes < 2 ^ 64 := by
      cases a <;> simp only [Side.step, Side.started, Side.finished, Side.canceled, Side.opFinished] <;> omega
    rw [ih _ hb]
    cases a <;> simp only [Side.step, Side.started, Side.finished, Side.canceled, Side.opFinished, netBytes] <;> omega

theorem fold_count_lt (s : Side) (hs : s.count < 2 ^ 32) (l : List FileSec) : (l.foldl Side.step s).count < 2 ^ 32 := by
  have := fold_count s hs l; omega

theorem fold_bytes_lt (s : Side) (hs : s.bytes < 2 ^ 64) (l : List FileSec) : (l.foldl Side.step s).bytes < 2 ^ 64 := by
  have := fold_bytes s hs l; omega

/-! ### Times -/

theorem mul_step (a x y : Int) : a * y = a * x + a * (y - x) := by rw [Int.mul_sub]; omega

theorem succ_mul' (a x : Int) : (a + 1) * x = a * x + x := by rw [Int.add_mul]; omega
theorem pred_mul' (a x : Int) : (a - 1) * x = a * x - x := by rw [Int.sub_mul]; omega

theorem history_time {q : Reqs} {l : List FileSec} {b : Book} (h : History q l b) :
    (l.foldl Side.step {}).acc = b.running.length ∧
      (l.foldl Side.step {}).time =
        (l.foldl Side.step {}).acc * (l.foldl Side.step {}).begin_ + (b.finished.map q.duration).sum
          - (b.running.map q.start).sum + (b.ops.map (·.2)).sum := by
  induction h with
  | nil => simp
  | start r h hr hf ih =>
    obtain ⟨ia, it⟩ := ih
    simp only [List.foldl_append, List.foldl_cons, List.foldl_nil, Side.step, Side.started, List.map_cons, List.sum_cons, List.length_cons]
    refine ⟨by omega, ?_⟩
    generalize List.foldl Side.step {} _ = s at *
    rw [succ_mul', mul_step _ s.begin_ (q.start r)]
    omega
  | cancel r h hr hc ih =>
    simpa only [List.foldl_append, List.foldl_cons, List.foldl_nil, Side.step, Side.canceled] using ih
  | finish r h hr ih =>
    obtain ⟨ia, it⟩ := ih
    simp only [List.foldl_append, List.foldl_cons, List.foldl_nil, Side.step, Side.finished, List.map_cons, List.sum_cons]
    have h1 := length_erase hr
    have h2 := sum_erase q.start hr
    refine ⟨by omega, ?_⟩
    generalize List.foldl Side.step {} _ = s at *
    rw [pred_mul', mul_step _ s.begin_ (q.fin r)]
    simp only [Reqs.duration] at *
    omega
  | op n d h ih =>
    obtain ⟨ia, it⟩ := ih
    simp only [List.foldl_append, List.foldl_cons, List.foldl_nil, Side.step, Side.opFinished, List.map_cons, List.sum_cons]
    exact ⟨ia, by omega⟩

theorem history_net {q : Reqs} {l : List FileSec} {b : Book} (h : History q l b) :
    netCount l = (b.running.length + b.finished.length + b.ops.length : Int) - b.canceled.length ∧
      netBytes l = (b.running.map fun r => (q.size r : Int)).sum + (b.finished.map fun r => (q.size r : Int)).sum
        + (b.ops.map fun o => (o.1 : Int)).sum - (b.canceled.map fun r => (q.size r : Int)).sum := by
  induction h with
  | nil => simp [netCount, netBytes]
  | start r h hr hf ih =>
    rw [net_append_count, net_append_bytes]
    simp only [netCount, netBytes, List.length_cons, List.map_cons, List.sum_cons] at *
    omega
  | cancel r h hr hc ih =>
    rw [net_append_count, net_append_bytes]
    simp only [netCount, netBytes, List.length_cons, List.map_cons, List.sum_cons] at *
    omega
  | finish r h hr ih =>
    have h1 := length_erase hr
    have h2 := sum_erase (fun r => (q.size r : Int)) hr
    rw [net_append_count, net_append_bytes]
    simp only [netCount, netBytes, List.length_cons, List.map_cons, List.sum_cons] at *
    omega
  | op n d h ih =>
    rw [net_append_count, net_append_bytes]
    simp only [netCount, netBytes, List.length_cons, List.map_cons, List.sum_cons] at *
    omega

/-! ### Parallel time -/

theorem range_split (p : Nat → Bool) (a b : Nat) (h : a ≤ b) :
    ((List.range b).filter p).length = ((List.range a).filter p).length + ((List.range (b - a)).filter (fun i => p (a + i))).length := by
  obtain ⟨k, rfl⟩ := Nat.exists_eq_add_of_le h
  rw [List.range_add, List.filter_append, List.length_append, List.filter_map, List.length_map]
  simp only [Nat.add_sub_cancel_left]
  rfl

theorem filter_const_len (n : Nat) (p : Nat → Bool) (b : Bool) (h : ∀ i, i < n → p i = b) :
    ((List.range n).filter p).length = if b then n else 0 := by
  cases b with
  | true =>
    rw [List.filter_eq_self.2 (fun i hi => h i (List.mem_range.1 hi))]; simp
  | false =>
    rw [List.filter_eq_nil_iff.2 (fun i hi => by simp [h i (List.mem_range.1 hi)])]; simp

theorem filter_len_congr (n : Nat) (p q : Nat → Bool) (h : ∀ i, i < n → p i = q i) :
    ((List.range n).filter p).length = ((List.range n).filter q).length := by
  rw [List.filter_congr (fun i hi => h i (List.mem_range.1 hi))]

/-- Known of an ordered history: everything is in the past of the last event. -/
theorem ordered_past {start fin : Nat → Nat} {l run don t} (h : Ordered start fin l run don t) :
    (∀ r ∈ run, start r ≤ t) ∧ (∀ r ∈ don, fin r ≤ t) := by
  induction h with
  | nil => simp
  | start r h hr hd ht ih =>
    refine ⟨fun x hx => ?_, fun x hx => Nat.le_trans (ih.2 x hx) ht⟩
    rcases List.mem_cons.1 hx with rfl | hx
    · exact Nat.le_refl _
    · exact Nat.le_trans (ih.1 x hx) ht
  | finish r h hr ht ih =>
    refine ⟨fun x hx => Nat.le_trans (ih.1 x (List.mem_of_mem_erase hx)) ht, fun x hx => ?_⟩
    rcases List.mem_cons.1 hx with rfl | hx
    · exact Nat.le_refl _
    · exact Nat.le_trans (ih.2 x hx) ht

/-- From the last event on, activity is running operations. -/
theorem active_later {start fin : Nat → Nat} {l run don t} (h : Ordered start fin l run don t) (u : Nat) (hu : t ≤ u) :
    activeAt start fin run don u = !run.isEmpty := by
  obtain ⟨h1, h2⟩ := ordered_past h
  have hd : (don.any fun r => decide (start r ≤ u ∧ u < fin r)) = false := by
    rw [List.any_eq_false]
    intro r hr; have := h2 r hr; simp; omega
  unfold activeAt
  rw [hd, Bool.or_false]
  cases run with
  | nil => rfl
  | cons r run =>
    have := h1 r (by simp)
    simp [show start r ≤ u by omega]

theorem active_start (start fin : Nat → Nat) (run don : List Nat) (r u : Nat) (hu : u < start r) :
    activeAt start fin (r :: run) don u = activeAt start fin run don u := by
  simp [activeAt, show ¬ start r ≤ u by omega]

theorem active_finish (start fin : Nat → Nat) (run don : List Nat) (r u : Nat) (hr : r ∈ run) (hu : u < fin r) :
    activeAt start fin (run.erase r) (r :: don) u = activeAt start fin run don u := by
  have key : (run.any fun r => decide (start r ≤ u)) = (decide (start r ≤ u) || (run.erase r).any fun r => decide (start r ≤ u)) := by
    rw [Bool.eq_iff_iff]
    simp only [List.any_eq_true, Bool.or_eq_true, decide_eq_true_eq]
    constructor
    · rintro ⟨x, hx, hxu⟩
      by_cases e : x = r
      · exact .inl (e ▸ hxu)
      · exact .inr ⟨x, (List.mem_erase_of_ne e).2 hx, hxu⟩
    · rintro (h | ⟨x, hx, hxu⟩)
      · exact ⟨r, hr, h⟩
      · exact ⟨x, List.mem_of_mem_erase hx, hxu⟩
  unfold activeAt
  rw [key]
  simp only [List.any_cons, hu, and_true]
  cases decide (start r ≤ u) <;> simp

theorem busy_step {start fin : Nat → Nat} {l run don t} (h : Ordered start fin l run don t) (now : Nat) (hn : t ≤ now)
    (run' don' : List Nat) (hc : ∀ u, u < now → activeAt start fin run' don' u = activeAt start fin run don u) :
    (busy start fin run' don' now : Int) = busy start fin run don t + (if run.length ≠ 0 then (now : Int) - t else 0) := by
  unfold busy
  rw [filter_len_congr now _ _ hc, range_split _ t now hn,
    filter_const_len (now - t) _ (!run.isEmpty) (fun i _ => active_later h (t + i) (by omega))]
  cases run with
  | nil => simp
  | cons r run => simp; omega

theorem ordered_time {start fin : Nat → Nat} {l run don t} (h : Ordered start fin l run don t) :
    (l.foldl Par.step {}).acc = run.length ∧ (l.foldl Par.step {}).begin_ = t ∧
      (l.foldl Par.step {}).time = busy start fin run don t := by
  induction h with
  | nil => simp [busy]
  | start r h hr hd ht ih =>
    obtain ⟨ia, ib, it⟩ := ih
    simp only [List.foldl_append, List.foldl_cons, List.foldl_nil, Par.step, Par.started, if_true]
    refine ⟨by simp [ia], trivial, ?_⟩
    rw [busy_step h _ ht _ _ (fun u hu => active_start start fin _ _ r u hu), ia, ib, it]
    simp only [ne_eq, Int.natCast_eq_zero]
  | finish r h hr ht ih =>
    obtain ⟨ia, ib, it⟩ := ih
    have h1 := length_erase hr
    simp only [List.foldl_append, List.foldl_cons, List.foldl_nil, Par.step, Par.finished]
    refine ⟨by simp [ia]; omega, rfl, ?_⟩
    rw [busy_step h _ ht _ _ (fun u hu => active_finish start fin _ _ r u hr hu)]
    simp [ia, ib, it]

theorem busy_elapsed (start fin : Nat → Nat) (run don : List Nat) (t0 T : Nat)
    (h : ∀ r, r ∈ run ∨ r ∈ don → t0 ≤ start r) : busy start fin run don T ≤ T - t0 := by
  unfold busy
  by_cases hT : t0 ≤ T
  · rw [range_split _ t0 T hT, filter_const_len t0 _ false]
    · have := List.length_filter_le (fun i => activeAt start fin run don (t0 + i)) (List.range (T - t0))
      simpa using this
    · intro u hu
      simp only [activeAt, Bool.or_eq_false_iff, List.any_eq_false]
      refine ⟨fun r hr => ?_, fun r hr => ?_⟩
      · have := h r (.inl hr); simp; omega
      · have := h r (.inr hr); simp; omega
  · rw [filter_const_len T _ false]
    · simp
    · intro u hu
      simp only [activeAt, Bool.or_eq_false_iff, List.any_eq_false]
      refine ⟨fun r hr => ?_, fun r hr => ?_⟩
      · have := h r (.inl hr); simp; omega
      · have := h r (.inr hr); simp; omega

theorem ordered_serial {start fin : Nat → Nat} {l run don t} (h : Ordered start fin l run don t) :
    (busy start fin run don t : Int) ≤
      (don.map fun r => (fin r : Int) - start r).sum + (run.map fun r => (t : Int) - start r).sum := by
  have shift : ∀ (run : List Nat) (a b : Int), (run.map fun r => b - (start r : Int)).sum = (run.map fun r => a - (start r : Int)).sum + run.length * (b - a) := by
    intro run a b
    induction run with
    | nil => simp
    | cons r run ih => simp only [List.map_cons, List.sum_cons, List.length_cons, ih, Int.natCast_add, Int.natCast_one, succ_mul']; omega
  have step : ∀ (n : Nat) (d : Int), 0 ≤ d → (if n ≠ 0 then d else 0) ≤ n * d := by
    intro n d hd
    cases n with
    | zero => simp
    | succ n =>
      have : 0 ≤ (n : Int) * d := Int.mul_nonneg (by omega) hd
      simp only [ne_eq, Nat.add_one_ne_zero, not_false_eq_true, if_true, Int.natCast_add, Int.natCast_one, succ_mul']; omega
  induction h with
  | nil => simp [busy]
  | @start l run don t r h hr hd ht ih =>
    rw [busy_step h _ ht _ _ (fun u hu => active_start start fin _ _ r u hu)]
    simp only [List.map_cons, List.sum_cons]
    rw [shift _ t (start r)]
    have := step run.length ((start r : Int) - t) (by omega)
    omega
  | @finish l run don t r h hr ht ih =>
    rw [busy_step h _ ht _ _ (fun u hu => active_finish start fin _ _ r u hr hu)]
    simp only [List.map_cons, List.sum_cons]
    have h2 := sum_erase (fun x => (fin r : Int) - start x) hr
    have h3 := shift run t (fin r)
    have := step run.length ((fin r : Int) - t) (by omega)
    omega

/-! ### Waits -/

theorem wait_par (l : List (Bool × Int)) (w : Wait) (p : Par) (h : w.p = p.time ∧ w.begin_ = p.begin_ ∧ w.acc = p.acc) :
    (l.foldl Wait.step w).p = (l.foldl Par.step p).time := by
  induction l generalizing w p with
  | nil => exact h.1
  | cons e l ih =>
    simp only [List.foldl_cons]
    apply ih
    obtain ⟨h1, h2, h3⟩ := h
    rcases e with ⟨b, now⟩
    cases b <;> simp [Wait.step, Par.step, Wait.started, Wait.finished, Par.started, Par.finished, h1, h2, h3]

theorem events_time {start fin : Nat → Int} {l run don} (h : Events start fin l run don) :
    (l.foldl Wait.step {}).acc = run.length ∧
      (l.foldl Wait.step {}).t = (l.foldl Wait.step {}).acc * (l.foldl Wait.step {}).begin_
        + (don.map fun r => fin r - start r).sum - (run.map start).sum := by
  induction h with
  | nil => simp
  | start r h hr hd ih =>
    obtain ⟨ia, it⟩ := ih
    simp only [List.foldl_append, List.foldl_cons, List.foldl_nil, Wait.step, Wait.started, if_true, List.map_cons, List.sum_cons, List.length_cons]
    refine ⟨by omega, ?_⟩
    generalize List.foldl Wait.step {} _ = s at *
    rw [succ_mul', mul_step _ s.begin_ (start r)]
    omega
  | finish r h hr ih =>
    obtain ⟨ia, it⟩ := ih
    have h1 := length_erase hr
    have h2 := sum_erase start hr
    simp only [List.foldl_append, List.foldl_cons, List.foldl_nil, Wait.step, Wait.finished, Bool.false_eq_true, if_false, List.map_cons, List.sum_cons]
    refine ⟨by omega, ?_⟩
    generalize List.foldl Wait.step {} _ = s at *
    rw [pred_mul', mul_step _ s.begin_ (fin r)]
    omega

/-! ### The list of `file_stats` -/

structure DevInv (ids : List Nat) (l : List Entry) (res : List (Nat × Nat)) : Prop where
  sorted : l.Pairwise (fun a b => a.dev < b.dev ∨ (a.dev = 0 ∧ b.dev = 0))
  objs : l.Pairwise (fun a b => a.obj ≠ b.obj)
  small : ∀ e ∈ l, e.obj < ids.length
  res_in : ∀ x ∈ res, Entry.mk x.2 x.1 ∈ l
  res_fun : ∀ x ∈ res, ∀ y ∈ res, x.1 = y.1 → x.2 = y.2
  ids_res : ∀ i, i ∈ ids ↔ ∃ x ∈ res, x.1 = i
  devs : ∀ e ∈ l, e.dev ∈ ids
  zeros : (∀ i ∈ ids, i = 0) → ∀ x ∈ res, l.getLast? = some ⟨x.2, x.1⟩

theorem lower_all (dev : Nat) (l : List Entry) (h : ∀ e ∈ l, e.dev < dev) : lowerBound dev l = l.length := by
  unfold lowerBound
  induction l with
  | nil => rfl
  | cons a l ih =>
    rw [List.takeWhile_cons, if_pos (by simpa using h a (by simp))]
    simp only [List.length_cons]
    rw [ih (fun e he => h e (by simp [he]))]

theorem lower_zero (l : List Entry) : lowerBound 0 l = 0 := by
  unfold lowerBound; cases l <;> simp

theorem lower_found (dev : Nat) (hd : dev ≠ 0) (l : List Entry)
    (hs : l.Pairwise (fun a b => a.dev < b.dev ∨ (a.dev = 0 ∧ b.dev = 0))) (e : Entry) (he : e ∈ l) (hed : e.dev = dev) :
    l[lowerBound dev l]? = some e := by
  induction l with
  | nil => cases he
  | cons a l ih =>
    obtain ⟨ha, hl⟩ := List.pairwise_cons.1 hs
    rcases List.mem_cons.1 he with rfl | he
    · simp [lowerBound, hed]
    · have : a.dev < dev := by
        rcases ha e he with h | h
        · omega
        · omega
      have hstep : lowerBound dev (a :: l) = lowerBound dev l + 1 := by simp [lowerBound, this]
      rw [hstep, List.getElem?_cons_succ]
      exact ih hl he

theorem sorted_unique {l : List Entry} (hs : l.Pairwise (fun a b => a.obj ≠ b.obj)) {a b : Entry} (ha : a ∈ l) (hb : b ∈ l)
    (h : a.obj = b.obj) : a = b := by
  induction l with
  | nil => cases ha
  | cons x l ih =>
    obtain ⟨hx, hl⟩ := List.pairwise_cons.1 hs
    rcases List.mem_cons.1 ha with ea | ha <;> rcases List.mem_cons.1 hb with eb | hb
    · rw [ea, eb]
    · exact absurd h (ea ▸ hx b hb)
    · exact absurd h.symm (eb ▸ hx a ha)
    · exact ih hl ha hb

theorem devInv : ∀ (ids : List Nat), Increasing ids → DevInv ids (createAll ids).1 (createAll ids).2
  | [], _ => by constructor <;> simp [createAll]
  | dev :: ids, h => by
    obtain ⟨h1, h2⟩ := h
    have I := devInv ids h1
    simp only [createAll]
    generalize createAll ids = s at I
    obtain ⟨l, res⟩ := s
    simp only at I ⊢
    by_cases hbig : ∀ x ∈ ids, x < dev
    · -- appended at the end
      have hlow : lowerBound dev l = l.length := lower_all dev l (fun e he => hbig _ (I.devs e he))
      have hc : createFileStats l dev ids.length = (l ++ [⟨ids.length, dev⟩], ids.length) := by
        simp [createFileStats, hlow]
      rw [hc]
      have hnew : ∀ x ∈ res, x.1 < dev := fun x hx => hbig _ ((I.ids_res _).2 ⟨x, hx, rfl⟩)
      constructor
      · refine List.pairwise_append.2 ⟨I.sorted, by simp, fun a ha b hb => ?_⟩
        simp only [List.mem_singleton] at hb; subst hb
        exact .inl (hbig _ (I.devs a ha))
      · refine List.pairwise_append.2 ⟨I.objs, by simp, fun a ha b hb => ?_⟩
        simp only [List.mem_singleton] at hb; subst hb
        exact Nat.ne_of_lt (I.small a ha)
      · intro e he
        rcases List.mem_append.1 he with he | he
        · have := I.small e he; simp; omega
        · simp only [List.mem_singleton] at he; subst he; simp
      · intro x hx
        rcases List.mem_cons.1 hx with rfl | hx
        · simp
        · exact List.mem_append.2 (.inl (I.res_in x hx))
      · intro x hx y hy hxy
        rcases List.mem_cons.1 hx with rfl | hx <;> rcases List.mem_cons.1 hy with rfl | hy
        · rfl
        · have := hnew y hy; simp only at hxy; omega
        · have := hnew x hx; simp only at hxy; omega
        · exact I.res_fun x hx y hy hxy
      · intro i
        constructor
        · intro hi
          rcases List.mem_cons.1 hi with rfl | hi
          · exact ⟨_, List.mem_cons_self, rfl⟩
          · obtain ⟨x, hx, e⟩ := (I.ids_res i).1 hi
            exact ⟨x, List.mem_cons_of_mem _ hx, e⟩
        · rintro ⟨x, hx, rfl⟩
          rcases List.mem_cons.1 hx with rfl | hx
          · simp
          · exact List.mem_cons_of_mem _ ((I.ids_res _).2 ⟨x, hx, rfl⟩)
      · intro e he
        rcases List.mem_append.1 he with he | he
        · exact List.mem_cons_of_mem _ (I.devs e he)
        · simp only [List.mem_singleton] at he; subst he; simp
      · intro hz x hx
        have hd0 := hz dev (by simp)
        rcases List.mem_cons.1 hx with rfl | hx
        · simp
        · have := hnew x hx; omega
    · -- already known
      have hmem : dev ∈ ids ∧ (dev = 0 → ∀ x ∈ ids, x = 0) := by
        rcases h2 with h2 | ⟨h2, h3⟩ | ⟨h2, h3⟩
        · exact absurd h2 hbig
        · exact ⟨h3, fun e => absurd e h2⟩
        · refine ⟨?_, fun _ => h3⟩
          cases ids with
          | nil => exact absurd (by simp) hbig
          | cons a ids => have := h3 a (by simp); subst h2; rw [this]; simp
      obtain ⟨x0, hx0, hx0d⟩ := (I.ids_res dev).1 hmem.1
      -- the list returned, the object returned
      have hc : (createFileStats l dev ids.length).2 = x0.2 ∧
          ((createFileStats l dev ids.length).1 = l ∨
            (dev = 0 ∧ (createFileStats l dev ids.length).1 = ⟨ids.length, 0⟩ :: l)) := by
        by_cases hd : dev = 0
        · have hz := I.zeros (hmem.2 hd) x0 hx0
          cases l with
          | nil => simp at hz
          | cons a l =>
            have ha : a.dev = 0 := hmem.2 hd _ (I.devs a (by simp))
            subst hd
            have e1 : createFileStats (a :: l) 0 ids.length = (⟨ids.length, 0⟩ :: a :: l, ((⟨ids.length, 0⟩ :: a :: l : List Entry).getLast?.getD ⟨ids.length, 0⟩).obj) := by
              simp [createFileStats, lower_zero, ha]
            rw [e1]
            refine ⟨?_, .inr ⟨rfl, rfl⟩⟩
            rw [List.getLast?_cons_cons, hz]; rfl
        · have hf := lower_found dev hd l I.sorted ⟨x0.2, x0.1⟩ (I.res_in x0 hx0) hx0d
          have e1 : createFileStats l dev ids.length = (l, x0.2) := by
            simp [createFileStats, hf, hx0d, hd]
          rw [e1]; exact ⟨rfl, .inl rfl⟩
      generalize createFileStats l dev ids.length = c at hc
      obtain ⟨l', o⟩ := c
      simp only at hc ⊢
      obtain ⟨rfl, hl'⟩ := hc
      have hsub : ∀ e ∈ l, e ∈ l' := by
        rcases hl' with rfl | ⟨_, rfl⟩
        · exact fun e he => he
        · exact fun e he => List.mem_cons_of_mem _ he
      have hback : ∀ e ∈ l', e ∈ l ∨ (e = ⟨ids.length, 0⟩ ∧ dev = 0) := by
        rcases hl' with rfl | ⟨hd, rfl⟩
        · exact fun e he => .inl he
        · intro e he
          rcases List.mem_cons.1 he with rfl | he
          · exact .inr ⟨rfl, hd⟩
          · exact .inl he
      have hres : ∀ x ∈ (dev, x0.2) :: res, x ∈ res := by
        intro x hx
        rcases List.mem_cons.1 hx with rfl | hx
        · rw [← hx0d]; exact hx0
        · exact hx
      constructor
      · rcases hl' with rfl | ⟨hd, rfl⟩
        · exact I.sorted
        · exact List.pairwise_cons.2 ⟨fun b hb => .inr ⟨rfl, hmem.2 hd _ (I.devs b hb)⟩, I.sorted⟩
      · rcases hl' with rfl | ⟨hd, rfl⟩
        · exact I.objs
        · exact List.pairwise_cons.2 ⟨fun b hb => Nat.ne_of_gt (I.small b hb), I.objs⟩
      · intro e he
        rcases hback e he with he | ⟨rfl, _⟩
        · have := I.small e he; simp; omega
        · simp
      · exact fun x hx => hsub _ (I.res_in x (hres x hx))
      · exact fun x hx y hy => I.res_fun x (hres x hx) y (hres y hy)
      · intro i
        constructor
        · intro hi
          rcases List.mem_cons.1 hi with rfl | hi
          · exact ⟨_, List.mem_cons_self, rfl⟩
          · obtain ⟨x, hx, e⟩ := (I.ids_res i).1 hi
            exact ⟨x, List.mem_cons_of_mem _ hx, e⟩
        · rintro ⟨x, hx, rfl⟩
          exact List.mem_cons_of_mem _ ((I.ids_res _).2 ⟨x, hres x hx, rfl⟩)
      · intro e he
        rcases hback e he with he | ⟨rfl, hd⟩
        · exact List.mem_cons_of_mem _ (I.devs e he)
        · simp [hd]
      · intro hz x hx
        have := I.zeros (fun i hi => hz i (List.mem_cons_of_mem _ hi)) x (hres x hx)
        rcases hl' with rfl | ⟨hd, rfl⟩
        · exact this
        · cases l with
          | nil => simp at this
          | cons a l => rw [List.getLast?_cons_cons]; exact this

/-- Every call keeps the list sorted and only inserts. -/
theorem create_grows (l : List Entry) (dev fresh : Nat) : l.Sublist (createFileStats l dev fresh).1 := by
  have ins : ∀ (i : Nat) (e : Entry), l.Sublist (l.take i ++ e :: l.drop i) := by
    intro i e
    have : (l.take i ++ l.drop i).Sublist (l.take i ++ e :: l.drop i) :=
      (List.Sublist.refl _).append (List.sublist_cons_self _ _)
    rwa [List.take_append_drop] at this
  unfold createFileStats
  simp only
  split
  · split
    · exact List.Sublist.refl _
    · exact ins _ _
  · exact ins _ _

theorem create_sorted (l : List Entry) (dev fresh : Nat) (h : (l.map (·.dev)).Pairwise (· ≤ ·)) :
    ((createFileStats l dev fresh).1.map (·.dev)).Pairwise (· ≤ ·) := by
  have ins : ∀ (l : List Entry), (l.map (·.dev)).Pairwise (· ≤ ·) →
      ((l.take (lowerBound dev l) ++ ⟨fresh, dev⟩ :: l.drop (lowerBound dev l)).map (·.dev)).Pairwise (· ≤ ·) := by
    intro l
    induction l with
    | nil => simp
    | cons a l ih =>
      intro h
      obtain ⟨ha, hl⟩ := List.pairwise_cons.1 h
      by_cases hlt : a.dev < dev
      · have hstep : lowerBound dev (a :: l) = lowerBound dev l + 1 := by simp [lowerBound, hlt]
        rw [hstep]
        simp only [List.take_succ_cons, List.drop_succ_cons, List.cons_append, List.map_cons]
        refine List.pairwise_cons.2 ⟨fun x hx => ?_, ih hl⟩
        simp only [List.map_append, List.map_cons, List.mem_append, List.mem_cons] at hx
        rcases hx with hx | rfl | hx
        · obtain ⟨e, he, rfl⟩ := List.mem_map.1 hx
          exact ha _ (List.mem_map.2 ⟨e, List.mem_of_mem_take he, rfl⟩)
        · exact Nat.le_of_lt hlt
        · obtain ⟨e, he, rfl⟩ := List.mem_map.1 hx
          exact ha _ (List.mem_map.2 ⟨e, List.mem_of_mem_drop he, rfl⟩)
      · have hstep : lowerBound dev (a :: l) = 0 := by simp [lowerBound, hlt]
        rw [hstep]
        simp only [List.take_zero, List.drop_zero, List.nil_append, List.map_cons]
        refine List.pairwise_cons.2 ⟨fun x hx => ?_, h⟩
        rcases List.mem_cons.1 hx with rfl | hx
        · omega
        · have h1 : a.dev ≤ x := ha x hx
          omega
  unfold createFileStats
  simp only
  split
  · split
    · exact h
    · exact ins l h
  · exact ins l h

/-! ### Snapshots -/

theorem FileData.sub_some {x a : FileData} (h : x.dev = a.dev) : ∃ z, x.sub a = some z ∧ z.dev = x.dev := by
  unfold FileData.sub; rw [if_neg (by simpa using h)]; exact ⟨_, rfl, rfl⟩

theorem FileData.add_sub {x a z : FileData} (hx : x.Fits) (ha : a.Fits) (h : x.sub a = some z) : a.add z = some x := by
  unfold FileData.sub at h
  split at h
  · cases h
  · rename_i hd
    cases h
    obtain ⟨h1, h2, h3, h4⟩ := hx
    obtain ⟨g1, g2, g3, g4⟩ := ha
    have hd' : x.dev = a.dev := by simpa using hd
    unfold FileData.add
    rw [if_neg (by simp [hd'])]
    cases x
    simp only [Option.some.injEq, FileData.mk.injEq] at *
    refine ⟨hd'.symm, ?_, ?_, ?_, ?_, ?_, ?_⟩ <;> omega

theorem sublist_head {y : Nat} {b : List Nat} {x : Nat} {a : List Nat} (h : (x :: a).Sublist (y :: b)) (hne : x ≠ y) : (x :: a).Sublist b := by
  cases h with
  | cons _ h => exact h
  | cons_cons _ h => exact absurd rfl hne

theorem add_sub_lists : ∀ (b a : List FileData), Later a b →
    ∃ c, mergeCombine FileData.sub b a = some c ∧ c.map (·.dev) = b.map (·.dev) ∧ mergeCombine FileData.add a c = some b
  | b, [], h => by
    cases b with
    | nil => exact ⟨[], by simp [mergeCombine], rfl, by simp [mergeCombine]⟩
    | cons y b => exact ⟨y :: b, by simp [mergeCombine], rfl, by simp [mergeCombine]⟩
  | [], x :: a, h => by have := h.grown; simp at this
  | y :: b, x :: a, h => by
    have hs := h.sorted
    simp only [List.map_cons, List.pairwise_cons] at hs
    by_cases he : x.dev = y.dev
    · have hl : Later a b := ⟨by
          have := h.grown
          simp only [List.map_cons, he] at this
          exact List.cons_sublist_cons.1 this, hs.2, fun z hz => h.fits z (by simp [hz]), fun z hz => h.fitsA z (by simp [hz])⟩
      obtain ⟨c, h1, h2, h3⟩ := add_sub_lists b a hl
      obtain ⟨z, hz, hzd⟩ := FileData.sub_some (x := y) (a := x) he.symm
      have hadd := FileData.add_sub (h.fits y (by simp)) (h.fitsA x (by simp)) hz
      refine ⟨z :: c, ?_, by simp [hzd, h2], ?_⟩
      · unfold mergeCombine
        rw [if_neg (by omega), if_neg (by omega), hz, h1]; rfl
      · unfold mergeCombine
        rw [if_neg (by omega), if_neg (by omega), hadd, h3]; rfl
    · have hg : ((x :: a).map (·.dev)).Sublist (b.map (·.dev)) := by
        have := h.grown
        simp only [List.map_cons] at this ⊢
        exact sublist_head this he
      have hlt : y.dev < x.dev := by
        have := hs.1 x.dev (hg.subset (by simp))
        omega
      obtain ⟨c, h1, h2, h3⟩ := add_sub_lists b (x :: a) ⟨hg, hs.2, fun z hz => h.fits z (by simp [hz]), h.fitsA⟩
      refine ⟨y :: c, ?_, by simp [h2], ?_⟩
      · unfold mergeCombine
        rw [if_pos hlt, h1]; rfl
      · unfold mergeCombine
        rw [if_neg (by omega), if_pos hlt, h3]; rfl
termination_by b a => b.length + a.length

/-- Strictly sorted by device. -/
theorem sub_mem : ∀ (b a c : List FileData), (b.map (·.dev)).Pairwise (· < ·) → (a.map (·.dev)).Pairwise (· < ·) →
    mergeCombine FileData.sub b a = some c →
    ∀ z ∈ c, (∃ x ∈ b, ∃ y ∈ a, x.sub y = some z) ∨ (z ∈ b ∧ z.dev ∉ a.map (·.dev)) ∨ (z ∈ a ∧ z.dev ∉ b.map (·.dev))
  | [], a, c, _, _, h => by
    simp only [mergeCombine, Option.some.injEq] at h; subst h
    exact fun z hz => .inr (.inr ⟨hz, by simp⟩)
  | y :: b, [], c, _, _, h => by
    simp only [mergeCombine, Option.some.injEq] at h; subst h
    exact fun z hz => .inr (.inl ⟨hz, by simp⟩)
  | y :: b, x :: a, c, hb, ha, h => by
    have hb' := hb
    have ha' := ha
    simp only [List.map_cons, List.pairwise_cons] at hb ha
    unfold mergeCombine at h
    split at h
    · rename_i hlt
      cases hr : mergeCombine FileData.sub b (x :: a) with
      | none => rw [hr] at h; cases h
      | some c' =>
        rw [hr] at h; cases h
        intro z hz
        rcases List.mem_cons.1 hz with rfl | hz
        · refine .inr (.inl ⟨by simp, ?_⟩)
          simp only [List.map_cons, List.mem_cons, not_or]
          refine ⟨by omega, fun hm => ?_⟩
          have := ha.1 _ hm; omega
        · rcases sub_mem b (x :: a) c' hb.2 ha' hr z hz with ⟨u, hu, v, hv, e⟩ | ⟨h1, h2⟩ | ⟨h1, h2⟩
          · exact .inl ⟨u, by simp [hu], v, hv, e⟩
          · exact .inr (.inl ⟨by simp [h1], h2⟩)
          · refine .inr (.inr ⟨h1, ?_⟩)
            simp only [List.map_cons, List.mem_cons, not_or]
            refine ⟨?_, h2⟩
            rcases List.mem_cons.1 h1 with rfl | h1
            · omega
            · have := ha.1 z.dev (List.mem_map.2 ⟨z, h1, rfl⟩); omega
    · split at h
      · rename_i hnl hlt
        cases hr : mergeCombine FileData.sub (y :: b) a with
        | none => rw [hr] at h; cases h
        | some c' =>
          rw [hr] at h; cases h
          intro z hz
          rcases List.mem_cons.1 hz with rfl | hz
          · refine .inr (.inr ⟨by simp, ?_⟩)
            simp only [List.map_cons, List.mem_cons, not_or]
            refine ⟨by omega, fun hm => ?_⟩
            have := hb.1 _ hm; omega
          · rcases sub_mem (y :: b) a c' hb' ha.2 hr z hz with ⟨u, hu, v, hv, e⟩ | ⟨h1, h2⟩ | ⟨h1, h2⟩
            · exact .inl ⟨u, hu, v, by simp [hv], e⟩
            · refine .inr (.inl ⟨h1, ?_⟩)
              simp only [List.map_cons, List.mem_cons, not_or]
              refine ⟨?_, h2⟩
              rcases List.mem_cons.1 h1 with rfl | h1
              · omega
              · have := hb.1 z.dev (List.mem_map.2 ⟨z, h1, rfl⟩); omega
            · exact .inr (.inr ⟨by simp [h1], h2⟩)
      · rename_i hn1 hn2
        have hd : y.dev = x.dev := by omega
        obtain ⟨w, hw, hwd⟩ := FileData.sub_some (x := y) (a := x) hd
        rw [hw] at h
        simp only at h
        cases hr : mergeCombine FileData.sub b a with
        | none => rw [hr] at h; cases h
        | some c' =>
          rw [hr] at h; cases h
          intro z hz
          rcases List.mem_cons.1 hz with rfl | hz
          · exact .inl ⟨y, by simp, x, by simp, hw⟩
          · rcases sub_mem b a c' hb.2 ha.2 hr z hz with ⟨u, hu, v, hv, e⟩ | ⟨h1, h2⟩ | ⟨h1, h2⟩
            · exact .inl ⟨u, by simp [hu], v, by simp [hv], e⟩
            · refine .inr (.inl ⟨by simp [h1], ?_⟩)
              simp only [List.map_cons, List.mem_cons, not_or]
              refine ⟨?_, h2⟩
              have := hb.1 z.dev (List.mem_map.2 ⟨z, h1, rfl⟩); omega
            · refine .inr (.inr ⟨by simp [h1], ?_⟩)
              simp only [List.map_cons, List.mem_cons, not_or]
              refine ⟨?_, h2⟩
              have := ha.1 z.dev (List.mem_map.2 ⟨z, h1, rfl⟩); omega
termination_by b a => b.length + a.length

/-! ### Scoped timers -/

theorem timer_inv (l : List Bool) (t : Timer)
    (h : ∃ n, t.calls = (List.replicate n [true, false]).flatten ++ (if t.running then [true] else [])) :
    ∃ n, (timerRun l t).calls = (List.replicate n [true, false]).flatten ++ (if (timerRun l t).running then [true] else []) := by
  induction l generalizing t with
  | nil => exact h
  | cons b l ih =>
    obtain ⟨n, hn⟩ := h
    cases b
    · apply ih
      cases hr : t.running with
      | false => exact ⟨n, by simpa [Timer.stop, hr] using hn⟩
      | true =>
        refine ⟨n + 1, ?_⟩
        simp [Timer.stop, hr, hn, List.replicate_succ']
    · apply ih
      cases hr : t.running with
      | true => exact ⟨n, by simpa [Timer.start, hr] using hn⟩
      | false => exact ⟨n, by simp [Timer.start, hr, hn]⟩

end Foxxll.Iostats
