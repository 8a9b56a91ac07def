import Verif.Proofs.DiskQueues
import Verif.Props.OpenFile
/-
C81, C82: queues of disks.
-/
set_option linter.unusedSimpArgs false
namespace Foxxll.DiskQ
open Foxxll.Open (openDisks okOs st0)
open Foxxll.Config (Disk)

/-! ### C81: every request reaches a queue of its own type -/

/-- A disk as parsed from the text of the options. -/
def parsed (s : String) : Disk :=
  match Config.mkDisk "d".toList 0 s.toList with
  | .ok d => d
  | _ => {}

/-- Files of the disks with these options. -/
def filesOf (l : List String) : List File :=
  match (openDisks okOs {} 0 (l.map parsed) (st0 {})).1 with
  | .ok fs => fs.map ofObj
  | _ => []

/-- The property fails: `queue=-2` is accepted for other files than linuxaio and is the queue of all
linuxaio files.  Depending on which comes first, the program dies or a null pointer is used. -/
theorem C81_false : ∃ f g h i : File, filesOf ["linuxaio", "syscall queue=-2"] = [f, g] ∧ filesOf ["syscall queue=-2", "linuxaio"] = [h, i] ∧
    run empty [.make f, .make g, .add g 1] = .die ∧ run empty [.make h, .make i, .add i 1] = .ub :=
  ⟨{ aio := true, queue := -2 }, { aio := false, queue := -2 }, { aio := false, queue := -2 }, { aio := true, queue := -2 }, by rfl, by rfl, by rfl, by rfl⟩

/-- What holds: if no other disk than linuxaio names queue -2, every sequence of calls with the files
of the disks succeeds.  Queues are never exchanged or mixed: the requests waiting in the queue of a
file are those submitted with files of that queue, in order, without the canceled ones; and the queue
is of the type of the file. -/
theorem C81_partial {os : Open.Os} {b : Open.Build} {ds : List Disk} {s s' : Open.St} {l : List Open.FileObj} {ops : List Op}
    (h : openDisks os b 0 ds s = (.ok l, s')) (hq : ∀ d ∈ ds, Open.kindOf b d.ioImpl ≠ some .linuxaio → d.queue ≠ -2)
    (ho : ∀ x ∈ ops, x.file ∈ l.map ofObj) (hl : Legal [] ops) :
    ∃ m, run empty ops = .ok m ∧ ∀ x ∈ ops, ∃ q, m x.file.queue = some q ∧ q.aio = x.file.aio ∧ q.reqs = waiting x.file.queue ops := by
  obtain ⟨hlen, hf⟩ := openDisks_files h
  have hc : Compatible (l.map ofObj) := by
    have key : ∀ f ∈ l.map ofObj, f.aio = decide (f.queue = -2) := by
      intro f hf'
      rw [List.mem_map] at hf'
      obtain ⟨o, ho', rfl⟩ := hf'
      obtain ⟨j, hj, rfl⟩ := List.getElem_of_mem ho'
      have hjd : j < ds.length := by omega
      obtain ⟨h1, _, h2⟩ := hf j l[j] ds[j] (by simp [hj]) (by simp [hjd])
      show decide (l[j].kind = .linuxaio) = decide (l[j].queue = -2)
      rw [h2]
      by_cases hk : l[j].kind = .linuxaio
      · simp [hk]
      · have h3 := hq ds[j] (List.getElem_mem hjd) (by rw [h1]; intro e; exact hk (Option.some.inj e))
        simp only [hk, decide_false, if_false, Bool.false_eq]
        split
        · simp only [decide_eq_false_iff_not]; omega
        · simp only [decide_eq_false_iff_not]; exact h3
    intro f hf' g hg e
    rw [key f hf', key g hg, e]
  obtain ⟨m, h1, h2⟩ := run_inv hc ops [] empty inv_empty (by simp) ho hl
  refine ⟨m, h1, ?_⟩
  intro x hx
  have h3 := h2 x.file.queue
  simp only [List.nil_append] at h3
  cases hm : m x.file.queue with
  | none => rw [hm] at h3; exact absurd rfl (h3.1 x hx)
  | some q =>
    rw [hm] at h3
    obtain ⟨pre, y, post, h4, _, h5, h6⟩ := h3
    refine ⟨q, rfl, ?_, by rw [h6]⟩
    rw [h6]
    exact hc _ (ho y (by rw [h4]; simp)) _ (ho x hx) h5

/-- Canceling a submitted request succeeds exactly if it waits in the queue of its file (which takes
requests away by serving them, not shown here). -/
theorem C81_cancel_partial {fs : List File} {ops : List Op} {m : Map} {f : File} {r : Nat} (hc : Compatible fs)
    (ho : ∀ x ∈ ops, x.file ∈ fs) (hl : Legal [] ops) (hr : run empty ops = .ok m) (ha : Op.add f r ∈ ops) :
    ∃ m', cancel m f r = .ok (m', decide (r ∈ waiting f.queue ops)) := by
  obtain ⟨m1, h1, h2⟩ := run_inv hc ops [] empty inv_empty (by simp) ho hl
  rw [hr] at h1; cases h1
  have h3 := h2 f.queue
  simp only [List.nil_append] at h3
  cases hm : m f.queue with
  | none => rw [hm] at h3; exact absurd rfl (h3.1 _ ha)
  | some q =>
    rw [hm] at h3
    obtain ⟨pre, y, post, h4, _, h5, h6⟩ := h3
    have hq : q.aio = f.aio := by rw [h6]; exact hc _ (ho y (by rw [h4]; simp)) _ (ho _ ha) h5
    have hw : q.reqs = waiting f.queue ops := by rw [h6]
    unfold cancel; rw [hm]; simp only
    rw [hw]
    cases hf : f.aio with
    | true => rw [hf] at hq; simp only [hq, if_true]; exact ⟨_, rfl⟩
    | false => rw [hf] at hq; simp only [hq, Bool.false_eq_true, if_false]; exact ⟨_, rfl⟩

/-- Without any request there is no queue, and nothing to cancel. -/
theorem C81_cancel_none {fs : List File} {ops : List Op} {m : Map} {f : File} {r : Nat} (hc : Compatible fs) (hl : Legal [] ops)
    (ho : ∀ x ∈ ops, x.file ∈ fs ∧ x.file.queue ≠ f.queue) (hr : run empty ops = .ok m) (hf : f.aio = false) : cancel m f r = .ok (m, false) := by
  obtain ⟨m1, h1, h2⟩ := run_inv hc ops [] empty inv_empty (by simp) (fun x hx => (ho x hx).1) hl
  rw [hr] at h1; cases h1
  have h3 := h2 f.queue
  simp only [List.nil_append] at h3
  cases hm : m f.queue with
  | none => unfold cancel; rw [hm, hf]; rfl
  | some q =>
    rw [hm] at h3
    obtain ⟨pre, y, post, h4, _, h5, _⟩ := h3
    exact absurd h5 (ho y (by rw [h4]; simp)).2

/-- A queue has the length wished for by the file whose call created it, all others are ignored. -/
theorem C81_length {fs : List File} {pre post : List Op} {o : Op} {m : Map} (hc : Compatible fs)
    (ho : ∀ x ∈ pre ++ o :: post, x.file ∈ fs) (hl : Legal [] (pre ++ o :: post)) (hr : run empty (pre ++ o :: post) = .ok m)
    (hfirst : ∀ x ∈ pre, x.file.queue ≠ o.file.queue) (ha : o.file.aio = true) :
    ∃ q, m o.file.queue = some q ∧ q.length = o.file.length := by
  obtain ⟨m1, h1, h2⟩ := run_inv hc _ [] empty inv_empty (by simp) ho hl
  rw [hr] at h1; cases h1
  have h3 := h2 o.file.queue
  simp only [List.nil_append] at h3
  cases hm : m o.file.queue with
  | none => rw [hm] at h3; exact absurd rfl (h3.1 o (by simp))
  | some q =>
    rw [hm] at h3
    obtain ⟨pre', y, post', h4, h5, h6, h7⟩ := h3
    refine ⟨q, rfl, ?_⟩
    have hy : o = y := by
      rw [List.append_eq_append_iff] at h4
      rcases h4 with ⟨as, h8, h9⟩ | ⟨bs, h8, h9⟩
      · cases as with
        | nil => simp at h9; exact h9.1
        | cons a as =>
          simp at h9
          exact absurd rfl (h5 o (by rw [h8, h9.1]; simp))
      · cases bs with
        | nil => simp at h9; exact h9.1.symm
        | cons a as =>
          simp at h9
          exact absurd h6 (hfirst y (by rw [h8, h9.1]; simp))
    rw [h7, ← hy]; simp [fresh, ha]

example : ∃ l s', openDisks okOs {} 0 [parsed "linuxaio queue_length=5", parsed "syscall queue=7", parsed "mmap"] (st0 {}) = (.ok l, s') ∧
    l.map ofObj = [{ aio := true, queue := -2, length := 5 }, { aio := false, queue := 7 }, { aio := false, queue := 2 }] := ⟨_, _, rfl, rfl⟩
example : (let f : File := { aio := true, queue := -2, length := 5 }; let g : File := { aio := false, queue := 7 }
    Legal [] [.make f, .add g 1, .add f 2, .add g 3, .cancel g 1] ∧
    waiting 7 [.make f, .add g 1, .add f 2, .add g 3, .cancel g 1] = [3]) := by
  refine ⟨⟨trivial, trivial, trivial, trivial, ?_, trivial⟩, by rfl⟩
  simp

/-! ### C82: a queue for each disk -/

/-- The property fails: the second disk, with the default, shares the queue the first one names. -/
theorem C82_false : ∃ f g : File, filesOf ["syscall queue=1", "syscall"] = [f, g] ∧ f.queue = g.queue :=
  ⟨{ aio := false, queue := 1 }, { aio := false, queue := 1 }, by rfl, rfl⟩

/-- What holds: a disk with the default (not linuxaio) has the queue with its own number - so no two
of them share one - a disk that names a queue has that one, all linuxaio disks have queue -2; file
and disk allocator have the number of the disk. -/
theorem C82_partial {os : Open.Os} {b : Open.Build} {ds : List Disk} {s s' : Open.St} {l : List Open.FileObj}
    (h : openDisks os b 0 ds s = (.ok l, s')) (j : Nat) (o : Open.FileObj) (d : Disk) (hj : l[j]? = some o) (hd : ds[j]? = some d) :
    o.alloc = j ∧ (Open.kindOf b d.ioImpl = some .linuxaio → o.queue = -2) ∧
    (Open.kindOf b d.ioImpl ≠ some .linuxaio → d.queue = -1 → o.queue = j) ∧
    (Open.kindOf b d.ioImpl ≠ some .linuxaio → d.queue ≠ -1 → o.queue = d.queue) := by
  obtain ⟨h1, h2, h3⟩ := (openDisks_files h).2 j o d hj hd
  rw [Nat.zero_add] at h2 h3
  refine ⟨h2, ?_, ?_, ?_⟩
  · intro hk; rw [h1] at hk; rw [h3, if_pos (Option.some.inj hk)]
  · intro hk hq; rw [h3, if_neg (fun e => hk (by rw [h1, e])), if_pos hq]
  · intro hk hq; rw [h3, if_neg (fun e => hk (by rw [h1, e])), if_neg hq]

example : filesOf ["syscall", "memory", "fileperblock_mmap"] = [{ aio := false, queue := 0 }, { aio := false, queue := 1 }, { aio := false, queue := 2 }] := by rfl

end Foxxll.DiskQ
