/-
Auxiliary lemmas for the theorems of `Verif.Props.Manager`.
-/
import Verif.Proofs.Manager2
import Verif.Spec.ManagerTerms
set_option linter.unusedSimpArgs false

namespace Foxxll.Mgr
open Foxxll.Alloc

/-- an unfilled `BID<n>` -/
def fixed (n : Nat) : Bid := ⟨.null, 0, n, n⟩

/-- two disks of 4 and 2 bytes without autogrow -/
def cfg2 : List (Nat × Bool) := [(4, false), (2, false)]

def start2 : MSys := ⟨⟨[⟨[(0, 4)], 4, 4, 4, false⟩, ⟨[(0, 2)], 2, 2, 2, false⟩], 0, 0, 0⟩, [], 0, 0⟩

theorem start2_reach : MReach cfg2 start2 := .init rfl

/-- striping over two disks -/
def stripe2 (i : Nat) : Nat := i % 2

theorem nb4 : Alloc.newBlocks ⟨[(0, 4)], 4, 4, 4, false⟩ [2, 2] =
    (⟨[], 0, 4, 4, false⟩, .ok [0, 2]) := by unfold Alloc.newBlocks; rfl
theorem nb4a : Alloc.newBlocks ⟨[(0, 4)], 4, 4, 4, false⟩ [4] =
    (⟨[], 0, 4, 4, false⟩, .ok [0]) := by unfold Alloc.newBlocks; rfl
theorem nb2_refuse (n : Nat) (h : 2 < n) : Alloc.newBlocks ⟨[(0, 2)], 2, 2, 2, false⟩ [n] =
    (⟨[(0, 2)], 2, 2, 2, false⟩, .error .badExtAlloc) :=
  newBlocks_refuse _ _ rfl (by simpa using h)
theorem nb2 : Alloc.newBlocks ⟨[(0, 2)], 2, 2, 2, false⟩ [2] =
    (⟨[], 0, 2, 2, false⟩, .ok [0]) := by unfold Alloc.newBlocks; rfl

def full2 : MSys :=
  ⟨⟨[⟨[], 0, 4, 4, false⟩, ⟨[], 0, 2, 2, false⟩], 6, 6, 6⟩,
   [⟨.managed 0, 0, 2, 2⟩, ⟨.managed 1, 0, 2, 2⟩, ⟨.managed 0, 2, 2, 2⟩], 6, 6⟩

theorem new2 : start2.mgr.newBlocks stripe2 0 [fixed 2, fixed 2, fixed 2] =
    (full2.mgr, full2.live, .ok ()) := by
  have ha : assign start2.mgr.disks stripe2 (fun _ => 0) 0 [2, 2, 2] = .ok [0, 1, 0] := by rfl
  have hs : [fixed 2, fixed 2, fixed 2].map Bid.size = [2, 2, 2] := rfl
  simp only [Manager.newBlocks, hs, ha]
  rw [show List.range start2.mgr.disks.length = [0, 1] from rfl]
  simp [allocLoop, gather, start2, fixed, nb4, nb2, scatter, full2]
  decide

theorem valid2 : (MOp.new stripe2 0 [fixed 2, fixed 2, fixed 2]).Valid start2 :=
  ⟨fun i _ _ => Nat.mod_lt _ (by decide), by decide⟩

theorem full2_reach : MReach cfg2 full2 := by
  have := MReach.step start2_reach valid2
  simp only [MSys.step, new2] at this
  exact this

theorem sel_get {asg : List Nat} {out : List Bid} {k : Nat} (hk : k < asg.length)
    (hk' : k < out.length) : out[k] ∈ sel (fun x => x == asg[k]) asg out := by
  induction asg generalizing out k with
  | nil => simp at hk
  | cons a as ih => cases out with
    | nil => simp at hk'
    | cons b bs =>
      cases k with
      | zero => simp [sel]
      | succ k =>
        have := ih (out := bs) (k := k) (by simpa using hk) (by simpa using hk')
        simp only [List.getElem_cons_succ, sel]
        split
        · exact List.mem_cons_of_mem _ this
        · exact this

theorem assignedBytes_out {asg : List Nat} {out : List Bid} (hl : asg.length = out.length)
    (h : ∀ k (hk : k < asg.length) (hk' : k < out.length), out[k].storage = .managed asg[k])
    (d k : Nat) :
    assignedBytes d (asg.take k) ((out.map Bid.size).take k) = liveBytes (onDisk d (out.take k)) := by
  induction asg generalizing out k with
  | nil => cases out with
    | nil => simp [assignedBytes, liveBytes, onDisk]
    | cons => simp at hl
  | cons a as ih => cases out with
    | nil => simp at hl
    | cons b bs =>
      cases k with
      | zero => simp [assignedBytes, liveBytes, onDisk]
      | succ k =>
        have h0 := h 0 (by simp) (by simp)
        have := ih (out := bs) (by simpa using hl) (fun j hj hj' => by
          have := h (j + 1) (by simpa using hj) (by simpa using hj')
          simpa only [List.getElem_cons_succ] using this) k
        simp only [List.getElem_cons_zero] at h0
        simp only [assignedBytes, liveBytes, onDisk, List.map_cons, List.take_succ_cons,
          List.zip_cons_cons, List.filter_cons, h0] at this ⊢
        by_cases had : a = d
        · simp [had, this, Bid.block]
        · simp [had, this]

theorem MReachFixed.reach {cfgs s} (h : MReachFixed cfgs s) : MReach cfgs s := by
  induction h with
  | init h => exact .init h
  | step _ hv _ _ ih => exact .step ih hv

theorem bidBytes_append (a b : List Bid) : bidBytes (a ++ b) = bidBytes a + bidBytes b := by
  simp [bidBytes]

theorem bidBytes_erase {l : List Bid} {b : Bid} (hb : b ∈ l) :
    bidBytes l = bidBytes (l.erase b) + b.size := by
  have := ((List.perm_cons_erase hb).map Bid.size).sum_nat
  simp only [bidBytes, this, List.map_cons, List.sum_cons]; omega

theorem full2_fixed : MReachFixed cfg2 full2 := by
  have := MReachFixed.step (.init (show Manager.create cfg2 = .ok start2.mgr from rfl)) valid2
    (by simp only [MOp.Succeeds]; exact congrArg (fun x => x.2.2) new2)
    (by intro b hb; revert b; decide)
  have e : MSys.step ⟨start2.mgr, [], 0, 0⟩ (.new stripe2 0 [fixed 2, fixed 2, fixed 2]) = full2 := by
    simp only [MSys.step, new2]; rfl
  rwa [e] at this

theorem sum_onDisk (n : Nat) (bs : List Bid) (h : ∀ b ∈ bs, ∃ d, d < n ∧ b.storage = .managed d) :
    ((List.range n).map (fun d => liveBytes (onDisk d bs))).sum = bidBytes bs := by
  induction bs with
  | nil =>
    simp only [onDisk, List.filter_nil, List.map_nil, liveBytes, List.sum_nil, bidBytes]
    clear h
    induction n with
    | zero => rfl
    | succ n ih => simp [List.range_succ, List.map_append, ih]
  | cons b bs ih =>
    obtain ⟨d, hd, hs⟩ := h b List.mem_cons_self
    have ih' := ih (fun c hc => h c (List.mem_cons_of_mem _ hc))
    have hc : ∀ e, liveBytes (onDisk e (b :: bs)) = (if e = d then b.size else 0) + liveBytes (onDisk e bs) := by
      intro e
      by_cases he : e = d
      · subst he; simp [onDisk, hs, liveBytes, Bid.block]
      · have : ¬ d = e := fun h => he h.symm
        simp [onDisk, hs, he, this, liveBytes]
    have hone : ∀ m, ((List.range m).map (fun e => (if e = d then b.size else 0) + liveBytes (onDisk e bs))).sum =
        (if d < m then b.size else 0) + ((List.range m).map (fun e => liveBytes (onDisk e bs))).sum := by
      intro m
      induction m with
      | zero => simp
      | succ m ihm =>
        simp only [List.range_succ, List.map_append, List.map_cons, List.map_nil, List.sum_append, List.sum_cons,
          List.sum_nil, ihm]
        by_cases h1 : d < m
        · have h2 : ¬ m = d := by omega
          have h3 : d < m + 1 := by omega
          simp [h1, h2, h3]; omega
        · by_cases h2 : m = d
          · subst h2; simp; omega
          · have h3 : ¬ d < m + 1 := by omega
            simp [h1, h2, h3]
    simp only [hc]
    rw [hone n, if_pos hd, ih']
    simp [bidBytes]

theorem sum_acct (ds : List Disk) (f : Nat → List Block)
    (h : ∀ d dk, ds[d]? = some dk → dk.freeBytes + liveBytes (f d) = dk.diskBytes) :
    (ds.map Disk.freeBytes).sum + ((List.range ds.length).map (fun d => liveBytes (f d))).sum =
      (ds.map Disk.diskBytes).sum := by
  induction ds generalizing f with
  | nil => simp
  | cons d ds ih =>
    have h0 := h 0 d (by simp)
    have := ih (fun k => f (k + 1)) (fun k dk hk => h (k + 1) dk (by simpa using hk))
    simp only [List.length_cons, List.range_succ_eq_map, List.map_cons, List.map_map, List.sum_cons, Function.comp_def,
      Nat.succ_eq_add_one] at this ⊢
    omega

theorem onDisk_sum_mono (n : Nat) (a b : List Bid) :
    ((List.range n).map (fun d => liveBytes (onDisk d a))).sum ≤
      ((List.range n).map (fun d => liveBytes (onDisk d (a ++ b)))).sum := by
  induction n with
  | zero => simp
  | succ n ih =>
    simp only [List.range_succ, List.map_append, List.map_cons, List.map_nil, List.sum_append, List.sum_cons, List.sum_nil,
      onDisk_append]
    simp only [onDisk_append] at ih
    simp only [liveBytes, List.map_append, List.sum_append] at ih ⊢
    omega

theorem mreachOk_inv {cfgs s} (h : MReachOk cfgs s) : MInv cfgs.length s [] := by
  induction h with
  | @init m hm =>
    obtain ⟨ds, h1, h2, h3⟩ := createDisks_ok cfgs
    simp only [Manager.create, h1] at hm
    cases hm
    refine ⟨h2, fun d dk hd => ?_, by simp, by simp⟩
    exact h3 dk (List.mem_of_getElem? hd)
  | @step s op _ hv hs ih =>
    cases op with
    | new f o out =>
      obtain ⟨asg, m', out', r, h1, h2, h3, h4, h5, h6, h7, h8⟩ := newBlocks_spec ih f o out hv
      simp only [MOp.Succeeds, h4] at hs
      subst hs
      rcases h8 with ⟨-, h9, h10, -⟩ | ⟨h, -⟩
      · obtain ⟨lost', hi'⟩ := ih.step (op := .new f o out) hv
        have hm := hi'.man
        have hsz := hi'.size
        simp only [MSys.step, h4] at hm hsz ⊢
        exact ⟨h5, h9, hm, hsz⟩
      · cases h
    | delete b =>
      obtain ⟨m', h1, h2, h3, -⟩ := deleteBlock_spec ih b hv
      simp only [MSys.step, h1]
      exact ⟨h2, h3, fun c hc => ih.man c (List.mem_of_mem_erase hc), fun c hc => ih.size c (List.mem_of_mem_erase hc)⟩

theorem full2_ok : MReachOk cfg2 full2 := by
  have := MReachOk.step (.init (show Manager.create cfg2 = .ok start2.mgr from rfl)) valid2
    (by simp only [MOp.Succeeds]; exact congrArg (fun x => x.2.2) new2)
  have e : MSys.step ⟨start2.mgr, [], 0, 0⟩ (.new stripe2 0 [fixed 2, fixed 2, fixed 2]) = full2 := by
    simp only [MSys.step, new2]; rfl
  rwa [e] at this

theorem gather_const_ne {d e : Nat} (hne : d ≠ e) (asg sizes : List Nat) (h : ∀ a ∈ asg, a = d) :
    gather e asg sizes = [] := by
  induction asg generalizing sizes with
  | nil => rfl
  | cons a as ih => cases sizes with
    | nil => rfl
    | cons s ss =>
      have ha := h a (by simp)
      simp only [gather]
      rw [if_neg (by rw [ha]; exact hne), ih ss (fun a ha => h a (by simp [ha]))]

theorem allocLoop_single (d : Nat) (asg : List Nat) (h : ∀ a ∈ asg, a = d) (ds : List Nat)
    (hnd : ds.Nodup) (m : Manager) (out : List Bid) {m' out' e}
    (hg : ∀ dk, m.disks[d]? = some dk → dk.autogrow = false →
      dk.freeBytes < (gather d asg (out.map Bid.size)).sum →
      Alloc.newBlocks dk (gather d asg (out.map Bid.size)) = (dk, .error .badExtAlloc))
    (hok : ∀ dk, m.disks[d]? = some dk → gather d asg (out.map Bid.size) ≠ [] →
      (dk.autogrow = true ∨ (gather d asg (out.map Bid.size)).sum ≤ dk.freeBytes) →
      ∃ dk' offs, Alloc.newBlocks dk (gather d asg (out.map Bid.size)) = (dk', .ok offs))
    (hds : d < m.disks.length) (hall : ∀ x ∈ ds, x < m.disks.length)
    (herr : allocLoop asg ds m out = (m', out', .error e)) : m' = m ∧ out' = out := by
  induction ds with
  | nil => simp [allocLoop] at herr
  | cons c cs ih =>
    rw [List.nodup_cons] at hnd
    simp only [allocLoop] at herr
    by_cases hgc : gather c asg (out.map Bid.size) = []
    · rw [if_pos hgc] at herr
      exact ih hnd.2 (fun x hx => hall x (by simp [hx])) herr
    · rw [if_neg hgc] at herr
      have hcd : c = d := by
        by_cases hc : c = d
        · exact hc
        · exact absurd (gather_const_ne (Ne.symm hc) asg _ h) hgc
      subst hcd
      have hget : m.disks[c]? = some m.disks[c] := List.getElem?_eq_getElem hds
      rw [hget] at herr
      simp only at herr
      by_cases hroom : m.disks[c].autogrow = true ∨
          (gather c asg (out.map Bid.size)).sum ≤ m.disks[c].freeBytes
      · obtain ⟨dk', offs, he⟩ := hok _ hget hgc hroom
        rw [he] at herr
        simp only at herr
        -- all remaining disks get nothing, so no error is possible
        exfalso
        have : ∀ (es : List Nat) (m1 : Manager) (o1 : List Bid), c ∉ es →
            (allocLoop asg es m1 o1).2.2 = .ok () := by
          intro es
          induction es with
          | nil => intros; rfl
          | cons x xs ihx =>
            intro m1 o1 hx
            simp only [List.mem_cons, not_or] at hx
            simp only [allocLoop, gather_const_ne hx.1 asg _ h, if_true]
            exact ihx m1 o1 hx.2
        have h2 := congrArg (fun x => x.2.2) herr
        simp only [this cs _ (scatter c asg offs out) hnd.1] at h2
        cases h2
      · have hr := hg _ hget (by simpa using fun hc => hroom (Or.inl hc)) (by omega)
        rw [hr] at herr
        simp only [Prod.mk.injEq] at herr
        rw [List.set_getElem_self] at herr
        exact ⟨herr.1.symm, herr.2.1.symm⟩

end Foxxll.Mgr
