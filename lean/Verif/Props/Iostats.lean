import Verif.Proofs.Iostats
import Verif.Proofs.IostatsAux
/-
Properties C40-C43, C67, C68: the I/O statistics.  `l : List Sec` is any interleaving of the sections
of any number of threads.
-/
namespace Foxxll.Iostats

/-! ### C40 -/

/-- C40, time: when no request of a file is running, its read (write) time is the sum of the durations of
its finished requests (cancelled ones included) and of the operations reported as a whole, in whatever
order the events were recorded. -/
theorem C40_time (q : Reqs) (l : List Sec) (f : Nat) (d : Dir) (b : Book) (h : History q (fileSecs f d l) b)
    (hq : b.running = []) :
    ((World.run {} l).file f d).time = (b.finished.map fun r => q.fin r - q.start r).sum + (b.ops.map (·.2)).sum := by
  rw [run_file]
  obtain ⟨h1, h2⟩ := history_time h
  have h3 : (List.foldl Side.step (World.file {} f d) (fileSecs f d l)) = List.foldl Side.step {} (fileSecs f d l) := rfl
  rw [h3, h2, h1, hq]
  simp only [List.length_nil, List.map_nil, List.sum_nil, Int.natCast_zero, Int.zero_mul]
  have : (b.finished.map q.duration) = b.finished.map fun r => q.fin r - q.start r := rfl
  rw [this]; omega

/-- C40, count and bytes, at any moment: started requests and whole operations, without those
cancelled, modulo the range of the counter. -/
theorem C40_count (q : Reqs) (l : List Sec) (f : Nat) (d : Dir) (b : Book) (h : History q (fileSecs f d l) b) :
    (((World.run {} l).file f d).count : Int) =
        (b.running.length + b.finished.length + b.ops.length - b.canceled.length : Int) % 2 ^ 32 ∧
      (((World.run {} l).file f d).bytes : Int) =
        ((b.running.map fun r => (q.size r : Int)).sum + (b.finished.map fun r => (q.size r : Int)).sum
          + (b.ops.map fun o => (o.1 : Int)).sum - (b.canceled.map fun r => (q.size r : Int)).sum) % 2 ^ 64 := by
  rw [run_file]
  obtain ⟨h1, h2⟩ := history_net h
  rw [fold_count _ (Nat.two_pow_pos 32), fold_bytes _ (Nat.two_pow_pos 64), h1, h2]
  constructor
  · congr 1; show (0 : Int) + _ = _; omega
  · congr 1; show (0 : Int) + _ = _; omega

example : ((World.run {} sampleSecs).file 3 .read).time = 12 ∧ ((World.run {} sampleSecs).file 3 .read).count = 1 ∧
    ((World.run {} sampleSecs).file 3 .read).bytes = 100 := by decide

example : ((World.run {} sampleSecs).file 3 .read).time = 7 + 5 := by
  rw [C40_time sampleReqs sampleSecs 3 .read _ sample_history rfl]; decide

/-! ### C41 -/

/-- C41: if the events of a direction are recorded in time order, its parallel time is, after each event,
the number of ticks so far in which at least one operation was active; it exceeds neither the sum
of the times of all operations nor the time since a moment `t0` before all of them. -/
theorem C41_parallel (start fin : Nat → Nat) (l : List Sec) (d : Dir) (run don : List Nat) (t : Nat)
    (h : Ordered start fin (parEvents d l) run don t) :
    ((World.run {} l).par d).time = busy start fin run don t ∧
      ((World.run {} l).par d).time ≤
        (don.map fun r => (fin r : Int) - start r).sum + (run.map fun r => (t : Int) - start r).sum ∧
      ∀ t0, (∀ r, r ∈ run ∨ r ∈ don → t0 ≤ start r) → ((World.run {} l).par d).time ≤ ((t - t0 : Nat) : Int) := by
  rw [run_par]
  have h1 : (List.foldl Par.step (World.par {} d) (parEvents d l)).time = busy start fin run don t := (ordered_time h).2.2
  rw [h1]
  exact ⟨rfl, ordered_serial h, fun t0 h0 => by have := busy_elapsed start fin run don t0 t h0; omega⟩

/-- C41 for the time of all operations. -/
theorem C41_parallel_io (start fin : Nat → Nat) (l : List Sec) (run don : List Nat) (t : Nat)
    (h : Ordered start fin (ioEvents l) run don t) :
    (World.run {} l).ios.time = busy start fin run don t ∧
      (World.run {} l).ios.time ≤
        (don.map fun r => (fin r : Int) - start r).sum + (run.map fun r => (t : Int) - start r).sum ∧
      ∀ t0, (∀ r, r ∈ run ∨ r ∈ don → t0 ≤ start r) → (World.run {} l).ios.time ≤ ((t - t0 : Nat) : Int) := by
  rw [run_ios]
  have h1 : (List.foldl Par.step (World.ios {}) (ioEvents l)).time = busy start fin run don t := (ordered_time h).2.2
  rw [h1]
  exact ⟨rfl, ordered_serial h, fun t0 h0 => by have := busy_elapsed start fin run don t0 t h0; omega⟩

/-- C41 for waiting: `p_waits_`, and with `isRead` or its negation the parts for reads and writes. -/
theorem C41_parallel_wait (start fin : Nat → Nat) (l : List Sec) (run don : List Nat) (t : Nat) :
    (Ordered start fin (waitEvents (fun _ => true) l) run don t → (World.run {} l).waits.all.p = busy start fin run don t) ∧
    (Ordered start fin (waitEvents (fun o => decide (o = .read)) l) run don t →
      (World.run {} l).waits.read.p = busy start fin run don t) ∧
    (Ordered start fin (waitEvents (fun o => ! decide (o = .read)) l) run don t →
      (World.run {} l).waits.write.p = busy start fin run don t) := by
  refine ⟨fun h => ?_, fun h => ?_, fun h => ?_⟩
  · rw [run_wait_all, wait_par _ _ {} ⟨rfl, rfl, rfl⟩]; exact (ordered_time h).2.2
  · rw [run_wait_read, wait_par _ _ {} ⟨rfl, rfl, rfl⟩]; exact (ordered_time h).2.2
  · rw [run_wait_write, wait_par _ _ {} ⟨rfl, rfl, rfl⟩]; exact (ordered_time h).2.2

/-- The start (`true`) or end a call reports, with its time. -/
def eventOf : FileSec → Option (Bool × Int)
  | .started _ now => some (true, now)
  | .finished now => some (false, now)
  | _ => none

/-- C41, reporting: calls of `file_stats` functions (file, direction, call), one after the other, report each
start and end to the parallel time of their direction and to that of all operations, and to their file. -/
theorem C41_reported (calls : List (Nat × Dir × FileSec)) (f : Nat) (d : Dir) :
    parEvents d (calls.flatMap fun c => sections c.1 c.2.1 c.2.2) =
        (calls.filter fun c => decide (c.2.1 = d)).filterMap (fun c => eventOf c.2.2) ∧
      ioEvents (calls.flatMap fun c => sections c.1 c.2.1 c.2.2) = calls.filterMap (fun c => eventOf c.2.2) ∧
      fileSecs f d (calls.flatMap fun c => sections c.1 c.2.1 c.2.2) =
        (calls.filter fun c => decide (c.1 = f ∧ c.2.1 = d)).map (·.2.2) := by
  induction calls with
  | nil => exact ⟨rfl, rfl, rfl⟩
  | cons c calls ih =>
    obtain ⟨h1, h2, h3⟩ := ih
    obtain ⟨g, e, x⟩ := c
    simp only [List.flatMap_cons]
    refine ⟨?_, ?_, ?_⟩
    · unfold parEvents at *
      rw [List.filterMap_append, h1]
      by_cases he : e = d <;> cases x <;> simp [sections, eventOf, he]
    · unfold ioEvents at *
      rw [List.filterMap_append, h2]
      cases x <;> simp [sections, eventOf]
    · unfold fileSecs at *
      rw [List.filterMap_append, h3]
      by_cases he : g = f ∧ e = d
      · cases x <;> simp [sections, he]
      · cases x <;> simp [sections, he]

example : ioEvents ([(0, Dir.read, FileSec.started 8 1), (1, .write, .started 8 2), (0, .read, .finished 5)].flatMap fun c => sections c.1 c.2.1 c.2.2) =
    [(true, 1), (true, 2), (false, 5)] := by decide

/-- The order is needed, and the code does not ensure it (the time is taken before the mutex is
locked): operation 0 from 10 to 15 and operation 1 from 3 to 14, 0 recorded first, give 5, not 12. -/
theorem C41_order_needed : ∃ l : List Sec,
    Events (fun r => if r = 0 then 10 else 3) (fun r => if r = 0 then 15 else 14) (parEvents .read l) [] [0, 1] ∧
      ((World.run {} l).par .read).time = 5 ∧
      busy (fun r => if r = 0 then 10 else 3) (fun r => if r = 0 then 15 else 14) [] [0, 1] 15 = 12 :=
  ⟨[.par .read true 10, .par .read true 3, .par .read false 14, .par .read false 15],
    .finish 0 (.finish 1 (.start 1 (.start 0 .nil (by simp) (by simp)) (by simp) (by simp)) (by simp)) (by simp), by decide, by decide⟩

/-- Two overlapping operations, a pause, and a third. -/
example : Ordered (fun r => [2, 4, 20].getD r 0) (fun r => [9, 12, 25].getD r 0)
      (parEvents .write [.par .write true 2, .par .write true 4, .io true 4, .par .write false 9, .par .write false 12, .par .write true 20, .par .write false 25])
      [] [2, 1, 0] 25 ∧
    ((World.run {} [.par .write true 2, .par .write true 4, .io true 4, .par .write false 9, .par .write false 12, .par .write true 20, .par .write false 25]).par .write).time = 15 :=
  ⟨.finish 2 (.start 2 (.finish 1 (.finish 0 (.start 1 (.start 0 .nil (by simp) (by simp) (by simp)) (by simp) (by simp) (by simp))
    (by simp) (by simp)) (by simp) (by simp)) (by simp) (by simp) (by simp)) (by simp) (by simp), by decide⟩

/-! ### C42 -/

/-- C42 is false: asking for device 5 and then for device 3 gives one object for both; and after devices
0 and 7, asking for 0 again gives the object of 7. -/
theorem C42_false : ¬ (∀ ids, PerDevice ids) ∧ ¬ PerDevice [3, 5] ∧ ¬ PerDevice [0, 7, 0] := by
  have h1 : ¬ PerDevice [3, 5] := by
    intro h
    have := h (3, 0) (by decide) (5, 0) (by decide)
    exact absurd (this.2 rfl) (by decide)
  refine ⟨fun h => h1 (h _), h1, fun h => ?_⟩
  have := h (0, 1) (by decide) (7, 1) (by decide)
  exact absurd (this.2 rfl) (by decide)

/-- C42, partial: if each id is larger than all before, or not 0 and asked before, or all are 0.
Missing: a new id smaller than an earlier one, and id 0 asked again after another id. -/
theorem C42_partial (ids : List Nat) (h : Increasing ids) : PerDevice ids := by
  intro x hx y hy
  have I := devInv ids h
  refine ⟨I.res_fun x hx y hy, fun e => ?_⟩
  have := sorted_unique I.objs (I.res_in x hx) (I.res_in y hy) e
  exact congrArg Entry.dev this

example : Increasing [1, 4, 2, 1, 0, 0] ∧ (createAll [1, 4, 2, 1, 0, 0]).2 = [(1, 2), (4, 4), (2, 3), (1, 2), (0, 0), (0, 0)] := by
  refine ⟨?_, by decide⟩
  simp [Increasing]

/-! ### C43 -/

/-- C43: for a snapshot `b` later than `a`, `b - a` exists and `a + (b - a) = b`. -/
theorem C43_add_sub (a b : Data) (h : Later a.files b.files) :
    ∃ c, b.sub a = some c ∧ a.add c = some b := by
  obtain ⟨c, h1, _, h3⟩ := add_sub_lists b.files a.files h
  refine ⟨{ times := fun i => b.times i - a.times i, files := c }, ?_, ?_⟩
  · simp [Data.sub, h1]
  · simp only [Data.add, h3, Option.map_some, Option.some.injEq]
    cases b
    simp only [Data.mk.injEq, and_true]
    funext i; omega

/-- C43, per device, with each device once in each snapshot: an element of `b - a` is the difference of the
two elements of its device, or the element of the only snapshot with this device, unchanged. -/
theorem C43_per_device (a b c : Data) (hb : (b.files.map (·.dev)).Pairwise (· < ·)) (ha : (a.files.map (·.dev)).Pairwise (· < ·))
    (h : b.sub a = some c) :
    ∀ z ∈ c.files, (∃ x ∈ b.files, ∃ y ∈ a.files, x.sub y = some z) ∨ (z ∈ b.files ∧ z.dev ∉ a.files.map (·.dev)) ∨
      (z ∈ a.files ∧ z.dev ∉ b.files.map (·.dev)) := by
  unfold Data.sub at h
  cases hr : mergeCombine FileData.sub b.files a.files with
  | none => rw [hr] at h; cases h
  | some l => rw [hr] at h; cases h; exact sub_mem _ _ _ hb ha hr

/-- C43, activity: the difference of two snapshots of a file is what was recorded in between. -/
theorem C43_activity (f dev : Nat) (l m : List Sec) :
    ∃ z, (FileData.ofSides dev ((World.run {} (l ++ m)).file f)).sub (FileData.ofSides dev ((World.run {} l).file f)) = some z ∧
      (z.readCount : Int) = netCount (fileSecs f .read m) % 2 ^ 32 ∧
      (z.writeCount : Int) = netCount (fileSecs f .write m) % 2 ^ 32 ∧
      (z.readBytes : Int) = netBytes (fileSecs f .read m) % 2 ^ 64 ∧
      (z.writeBytes : Int) = netBytes (fileSecs f .write m) % 2 ^ 64 ∧
      z.readTime = ((World.run {} (l ++ m)).file f .read).time - ((World.run {} l).file f .read).time ∧
      z.writeTime = ((World.run {} (l ++ m)).file f .write).time - ((World.run {} l).file f .write).time := by
  have key : ∀ d, (((World.run {} (l ++ m)).file f d).count : Int) = (((World.run {} l).file f d).count + netCount (fileSecs f d m)) % 2 ^ 32 ∧
      (((World.run {} (l ++ m)).file f d).bytes : Int) = (((World.run {} l).file f d).bytes + netBytes (fileSecs f d m)) % 2 ^ 64 ∧
      ((World.run {} l).file f d).count < 2 ^ 32 ∧ ((World.run {} l).file f d).bytes < 2 ^ 64 := by
    intro d
    have h1 : ((World.run {} l).file f d).count < 2 ^ 32 := by rw [run_file]; exact fold_count_lt _ (Nat.two_pow_pos 32) _
    have h2 : ((World.run {} l).file f d).bytes < 2 ^ 64 := by rw [run_file]; exact fold_bytes_lt _ (Nat.two_pow_pos 64) _
    refine ⟨?_, ?_, h1, h2⟩
    · rw [run_append, run_file (World.run {} l), fold_count _ h1]
    · rw [run_append, run_file (World.run {} l), fold_bytes _ h2]
  have kr := key .read
  have kw := key .write
  refine ⟨_, by unfold FileData.sub; rw [if_neg (by simp [FileData.ofSides])], ?_, ?_, ?_, ?_, rfl, rfl⟩ <;>
    simp only [FileData.ofSides] <;> omega

/-- The list of files only grows and stays sorted, whatever ids are asked for, so that snapshots are `Later`. -/
theorem C43_lists (l : List Entry) (dev fresh : Nat) (h : (l.map (·.dev)).Pairwise (· ≤ ·)) :
    (l.map (·.dev)).Sublist ((createFileStats l dev fresh).1.map (·.dev)) ∧
      ((createFileStats l dev fresh).1.map (·.dev)).Pairwise (· ≤ ·) :=
  ⟨(create_grows l dev fresh).map _, create_sorted l dev fresh h⟩

def sampleA : Data := { times := fun _ => 3, files := [⟨1, 2, 0, 64, 0, 5, 0⟩] }
def sampleB : Data := { times := fun i => 5 + i.val, files := [⟨0, 1, 1, 8, 8, 1, 1⟩, ⟨1, 5, 1, 96, 32, 9, 4⟩] }

example : Later sampleA.files sampleB.files := by
  refine ⟨?_, by decide, ?_, ?_⟩
  · exact List.Sublist.cons _ (List.Sublist.refl _)
  · intro x hx; simp [sampleB] at hx; rcases hx with rfl | rfl <;> simp [FileData.Fits]
  · intro x hx; simp [sampleA] at hx; subst hx; simp [FileData.Fits]

/-- With a device only in the subtrahend, the difference contains it with its values not negated. -/
theorem C43_subtrahend_only : ∃ a b c : Data, b.sub a = some c ∧ b.files = [] ∧ c.files = a.files ∧ a.files ≠ [] :=
  ⟨sampleA, { times := fun _ => 0, files := [] }, { times := fun i => 0 - sampleA.times i, files := sampleA.files },
    by simp [Data.sub, mergeCombine], rfl, rfl, by simp [sampleA]⟩

/-! ### C67 -/

/-- C67: when nobody waits, the total waiting time is the sum of the lengths of all waits, the read part
that of the waits for reads, and the write part that of all others, whatever the order of recording. -/
theorem C67_waits (start fin : Nat → Int) (l : List Sec) (don donR donW : List Nat)
    (h : Events start fin (waitEvents (fun _ => true) l) [] don)
    (hR : Events start fin (waitEvents (fun o => decide (o = .read)) l) [] donR)
    (hW : Events start fin (waitEvents (fun o => decide (o ≠ .read)) l) [] donW) :
    (World.run {} l).waits.all.t = (don.map fun r => fin r - start r).sum ∧
      (World.run {} l).waits.read.t = (donR.map fun r => fin r - start r).sum ∧
      (World.run {} l).waits.write.t = (donW.map fun r => fin r - start r).sum := by
  have e : (fun o : WaitOp => decide (o ≠ .read)) = fun o => ! isRead o := by funext o; cases o <;> rfl
  rw [e] at hW
  rw [run_wait_all, run_wait_read, run_wait_write]
  have fin' : ∀ {ev : List (Bool × Int)} {dn : List Nat}, Events start fin ev [] dn →
      (ev.foldl Wait.step {}).t = (dn.map fun r => fin r - start r).sum := by
    intro ev dn hev
    obtain ⟨h1, h2⟩ := events_time hev
    rw [h2, h1]; simp
  exact ⟨fin' h, fin' hR, fin' hW⟩

example : Events (fun r => [5, 3].getD r 0) (fun r => [9, 8].getD r 0)
      (waitEvents (fun _ => true) [.wait .read true 5, .wait .any true 3, .wait .read false 9, .wait .any false 8]) [] [1, 0] ∧
    (World.run {} [.wait .read true 5, .wait .any true 3, .wait .read false 9, .wait .any false 8]).waits.all.t = 9 ∧
    (World.run {} [.wait .read true 5, .wait .any true 3, .wait .read false 9, .wait .any false 8]).waits.write.t = 5 :=
  ⟨.finish 1 (.finish 0 (.start 1 (.start 0 .nil (by simp) (by simp)) (by simp) (by simp)) (by simp)) (by simp), by decide, by decide⟩

/-! ### C68 -/

/-- C68: whatever calls of `start` and `stop` are made, after the destructor (a last `stop`) the calls that
reach the statistics alternate between started and finished, and end with finished. -/
theorem C68_timer (l : List Bool) : ∃ n, ((timerRun l {}).stop).calls = (List.replicate n [true, false]).flatten := by
  obtain ⟨n, hn⟩ := timer_inv (l ++ [false]) {} ⟨0, rfl⟩
  have e : ∀ (l : List Bool) (t : Timer), timerRun (l ++ [false]) t = (timerRun l t).stop := by
    intro l
    induction l with
    | nil => intro t; rfl
    | cons b l ih => intro t; cases b <;> exact ih _
  rw [e] at hn
  have hs : ((timerRun l {}).stop).running = false := by
    unfold Timer.stop; split <;> simp_all
  rw [hs] at hn
  exact ⟨n, by simpa using hn⟩

example : ((timerRun [true, true, false, false, true] {}).stop).calls = [true, false, true, false] := by decide

end Foxxll.Iostats
