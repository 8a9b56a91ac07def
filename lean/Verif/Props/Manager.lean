/-
Properties C07–C10: the block manager (several disks).
-/
import Verif.Proofs.Manager2
import Verif.Proofs.ManagerAux
set_option linter.unusedSimpArgs false

namespace Foxxll.Mgr
open Foxxll.Alloc

/-! ### A concrete history -/

/-- an unfilled BID of run-time size `n` -/
def raw (n : Nat) : Bid := ⟨.null, 0, n, 0⟩
/-! ### C07 -/

/-- **C07**: over all histories (including failed allocations), the live blocks on
each disk are pairwise disjoint and inside the disk, and all live block
identifiers name a managed disk. -/
theorem C07_live_disjoint {cfgs s} (h : MReach cfgs s) :
    (∀ b ∈ s.live, ∃ d dk, b.storage = .managed d ∧ s.mgr.disks[d]? = some dk ∧
        0 < b.size ∧ b.off + b.size ≤ dk.diskBytes) ∧
    ∀ d, (onDisk d s.live).Pairwise Block.Disjoint := by
  obtain ⟨lost, hi⟩ := mreach_inv h
  constructor
  · intro b hb
    obtain ⟨d, hd, hs⟩ := hi.man b hb
    have hlt : d < s.mgr.disks.length := by rw [hi.len]; exact hd
    have hget := List.getElem?_eq_getElem hlt
    refine ⟨d, _, hs, hget, (hi.size b hb).1, ?_⟩
    exact (hi.disk d _ hget).inv.inside (b := b.block)
      (mem_onDisk (List.mem_append.2 (Or.inl hb)) hs)
  · intro d
    by_cases hd : d < s.mgr.disks.length
    · have hdi := hi.disk d _ (List.getElem?_eq_getElem hd)
      have := disjoint_of_cov hdi.inv.cov_le
      rw [onDisk_append] at this
      exact (List.pairwise_append.1 this).1
    · have : onDisk d s.live = [] := by
        simp only [onDisk, List.map_eq_nil_iff, List.filter_eq_nil_iff]
        intro b hb
        obtain ⟨e, he, hs⟩ := hi.man b hb
        rw [hs]; rw [hi.len] at hd
        simp; omega
      rw [this]; simp

example : (onDisk 0 full2.live).Pairwise Block.Disjoint ∧ onDisk 0 full2.live = [⟨0, 2⟩, ⟨2, 2⟩] :=
  ⟨(C07_live_disjoint full2_reach).2 0, by decide⟩

/-- **C07**, completeness: a successful allocation fills every requested
identifier: same number, same sizes, each on a managed disk. -/
theorem C07_complete {cfgs s} (h : MReach cfgs s) (f : Nat → Nat) (o : Nat) (out : List Bid)
    (hv : (MOp.new f o out).Valid s) {m' out'}
    (hok : s.mgr.newBlocks f o out = (m', out', .ok ())) :
    out'.length = out.length ∧ out'.map Bid.size = out.map Bid.size ∧
    ∀ b ∈ out', ∃ d, d < cfgs.length ∧ b.storage = .managed d := by
  obtain ⟨lost, hi⟩ := mreach_inv h
  obtain ⟨asg, m1, out1, r, h1, h2, h3, h4, h5, h6, h7, h8⟩ := newBlocks_spec hi f o out hv
  rw [hok] at h4
  cases h4
  have hlen : out'.length = out.length := by simpa using congrArg List.length h6
  rcases h8 with ⟨-, h9, h10, -⟩ | ⟨h, -⟩
  · refine ⟨hlen, h6, fun b hb => ?_⟩
    obtain ⟨a, ha, hs⟩ := mem_zip_sel (asg := asg) (by omega) hb
    exact ⟨a, h3 a ha, h10 a ha b hs⟩
  · cases h

example : full2.live.length = 3 := (C07_complete start2_reach _ _ _ valid2 new2).1

/-! ### C08 -/

/-- **C08**: placement rule.  For the `k`-th block, with the bytes that the earlier
blocks of the same call take on each disk: strategy's disk if it has room, else the
cyclically next disk with room, else (no disk has room) the strategy's disk. -/
theorem C08_placement {cfgs s} (h : MReach cfgs s) (f : Nat → Nat) (o : Nat) (out : List Bid)
    (hv : (MOp.new f o out).Valid s) {m' out'}
    (hok : s.mgr.newBlocks f o out = (m', out', .ok ())) (k : Nat) (hk : k < out'.length) :
    ∃ d, out'[k].storage = .managed d ∧
      Placed s.mgr.disks (fun e => liveBytes (onDisk e (out'.take k))) (f (o + k)) out'[k].size d := by
  obtain ⟨lost, hi⟩ := mreach_inv h
  obtain ⟨asg, m1, out1, r, h1, h2, h3, h4, h5, h6, h7, h8⟩ := newBlocks_spec hi f o out hv
  rw [hok] at h4
  cases h4
  have hlen : out'.length = out.length := by simpa using congrArg List.length h6
  rcases h8 with ⟨-, h9, h10, -⟩ | ⟨h, -⟩
  · have hst : ∀ k (hk : k < asg.length) (hk' : k < out'.length), out'[k].storage = .managed asg[k] :=
      fun k hk hk' => h10 _ (List.getElem_mem hk) _ (sel_get hk hk')
    refine ⟨asg[k], hst k _ hk, ?_⟩
    obtain ⟨asg', g1, g2, g3, g4⟩ := assign_ok s.mgr.disks f (fun _ => 0) o (out.map Bid.size)
      (by intro j h1 h2; exact hv.1 j h1 (by simpa using h2))
    rw [h1] at g1; cases g1
    have := g4 k (by simpa using (show k < out.length by omega)) (by omega)
    have e : out'[k].size = (out.map Bid.size)[k]'(by simp; omega) := by
      have := congrArg (fun l => l[k]?) h6
      have hk2 : k < out.length := by omega
      simpa [hk, hk2] using this
    rw [e]
    refine (congrArg (fun g => Placed s.mgr.disks g (f (o + k)) _ asg[k]) (funext fun d => ?_)).mp this
    rw [← h6, assignedBytes_out (by omega) hst]; simp
  · cases h

-- the third block of the example: striping wants disk 0, which has room
example : ∃ d, full2.live[2].storage = .managed d ∧ Placed start2.mgr.disks
    (fun e => liveBytes (onDisk e (full2.live.take 2))) 0 2 d :=
  C08_placement start2_reach _ _ _ valid2 new2 2 (by decide)

/-! ### C09 -/

/-- **C09 is false** for run-time sized identifiers: allocating and freeing one
block of 2 bytes leaves `current_allocation` at 2 although nothing is live. -/
theorem C09_false : ∃ s, MReach cfg2 s ∧ s.live = [] ∧ s.mgr.cur = 2 := by
  have ha : assign start2.mgr.disks stripe2 (fun _ => 0) 1 [2] = .ok [1] := by rfl
  have hs : [raw 2].map Bid.size = [2] := rfl
  have hnew : start2.mgr.newBlocks stripe2 1 [raw 2] =
      (⟨[⟨[(0, 4)], 4, 4, 4, false⟩, ⟨[], 0, 2, 2, false⟩], 2, 2, 2⟩, [⟨.managed 1, 0, 2, 0⟩], .ok ()) := by
    simp only [Manager.newBlocks, hs, ha]
    rw [show List.range start2.mgr.disks.length = [0, 1] from rfl]
    simp [allocLoop, gather, start2, raw, nb4, nb2, scatter]
    decide
  have h1 : MReach cfg2 (start2.step (.new stripe2 1 [raw 2])) :=
    .step start2_reach ⟨fun i _ _ => Nat.mod_lt _ (by decide), by decide⟩
  simp only [MSys.step, hnew] at h1
  have h2 := MReach.step (op := .delete ⟨.managed 1, 0, 2, 0⟩) h1 (by simp [MOp.Valid, start2])
  exact ⟨_, h2, rfl, rfl⟩

/-- **C09, partial**: with compile-time sized identifiers and no failed allocation
the three statistics are exact.  Missing: run-time sizes and failed allocations, where
the property is false (`C09_false`, `C10_false`). -/
theorem C09_statistics_partial {cfgs s} (h : MReachFixed cfgs s) :
    s.mgr.cur = bidBytes s.live ∧ s.mgr.total = s.ever ∧ s.mgr.max = s.peak := by
  suffices hh : (s.mgr.cur = bidBytes s.live ∧ s.mgr.total = s.ever ∧ s.mgr.max = s.peak) ∧
      ∀ b ∈ s.live, b.tmpl ≠ 0 from hh.1
  induction h with
  | @init m hm =>
    obtain ⟨ds, h1, -⟩ := createDisks_ok cfgs
    simp only [Manager.create, h1] at hm
    cases hm
    simp [bidBytes]
  | @step s op hr hv hs hf ih =>
    obtain ⟨⟨i1, i2, i3⟩, i4⟩ := ih
    obtain ⟨lost, hi⟩ := mreach_inv hr.reach
    cases op with
    | new f o out =>
      obtain ⟨asg, m', out', r, h1, h2, h3, h4, h5, h6, h7, h8⟩ := newBlocks_spec hi f o out hv
      simp only [MOp.Succeeds, h4] at hs
      subst hs
      have hb : bidBytes out' = bidBytes out := by simp [bidBytes, h6]
      rcases h8 with ⟨-, -, -, e1, e2, e3⟩ | ⟨h, -⟩
      · simp only [MSys.step, h4]
        refine ⟨⟨?_, ?_, ?_⟩, ?_⟩
        · rw [e2, i1, bidBytes_append, hb]; omega
        · rw [e1, i2, hb]
        · rw [e3, i3, i1, bidBytes_append, hb]; omega
        · intro b hb
          rcases List.mem_append.1 hb with hb | hb
          · have : b.tmpl ∈ out'.map Bid.tmpl := List.mem_map.2 ⟨b, hb, rfl⟩
            rw [h7] at this
            obtain ⟨c, hc, hct⟩ := List.mem_map.1 this
            rw [← hct]; exact hf c hc
          · exact i4 b hb
      · cases h
    | delete b =>
      obtain ⟨m', h1, h2, h3, e1, e2, e3⟩ := deleteBlock_spec hi b hv
      simp only [MSys.step, h1]
      have hb : b ∈ s.live := hv
      have hbs := (hi.size b hb).2.resolve_left (i4 b hb)
      refine ⟨⟨?_, by rw [e1, i2], by rw [e3, i3]⟩, fun c hc => i4 c (List.mem_of_mem_erase hc)⟩
      rw [e2, i1, bidBytes_erase hb, hbs]; omega

example : full2.mgr.cur = 6 := (C09_statistics_partial full2_fixed).1

/-! ### C57 -/

/-- **C57**, first part: over all histories the capacity reported by `total_bytes` covers the
free bytes and the live blocks. -/
theorem C57_capacity {cfgs s} (h : MReach cfgs s) :
    s.mgr.freeBytes + bidBytes s.live ≤ s.mgr.totalBytes := by
  obtain ⟨lost, hi⟩ := mreach_inv h
  have h1 := sum_acct s.mgr.disks _ (fun d dk hd => (hi.disk d dk hd).acct)
  have h2 := sum_onDisk cfgs.length s.live hi.man
  have h3 := onDisk_sum_mono cfgs.length s.live lost
  rw [hi.len] at h1
  simp only [Manager.freeBytes, Manager.totalBytes]
  omega

/-- **C57**, second part: as long as no allocation has failed nothing is lost: free bytes and
live blocks add up to the capacity. -/
theorem C57_exact {cfgs s} (h : MReachOk cfgs s) :
    s.mgr.freeBytes + bidBytes s.live = s.mgr.totalBytes := by
  have hi := mreachOk_inv h
  have h1 := sum_acct s.mgr.disks _ (fun d dk hd => (hi.disk d dk hd).acct)
  have h2 := sum_onDisk cfgs.length s.live hi.man
  rw [hi.len] at h1
  simp only [List.append_nil] at h1
  simp only [Manager.freeBytes, Manager.totalBytes]
  omega

example : full2.mgr.totalBytes = 6 ∧ bidBytes full2.live = 6 ∧ full2.mgr.freeBytes = 0 := by
  have := C57_exact full2_ok
  refine ⟨rfl, rfl, rfl⟩

/-! ### C10 -/

/-- **C10 is false**: two disks with 4 and 2 bytes, a request of sizes 4 and 3 under
striping: the first block is taken from disk 0, then disk 1 refuses; the exception
leaves disk 0 full and the statistics changed, while the caller owns nothing. -/
theorem C10_false : ∃ m' out',
    start2.mgr.newBlocks stripe2 0 [raw 4, raw 3] = (m', out', .error (.alloc .badExtAlloc)) ∧
    m'.freeBytes = 2 ∧ start2.mgr.freeBytes = 6 ∧ m'.cur = 4 ∧ m'.max = 0 := by
  have ha : assign start2.mgr.disks stripe2 (fun _ => 0) 0 [4, 3] = .ok [0, 1] := by rfl
  have hs : [raw 4, raw 3].map Bid.size = [4, 3] := rfl
  refine ⟨⟨[⟨[], 0, 4, 4, false⟩, ⟨[(0, 2)], 2, 2, 2, false⟩], 4, 4, 0⟩,
    [⟨.managed 0, 0, 4, 0⟩, raw 3], ?_, rfl, rfl, rfl, rfl⟩
  simp only [Manager.newBlocks, hs, ha]
  rw [show List.range start2.mgr.disks.length = [0, 1] from rfl]
  simp [allocLoop, gather, start2, raw, nb4a, nb2_refuse, scatter]

/-- **C10, partial (a)**: an allocation can fail only if some disk without autogrow
is assigned more bytes than it has free; if every disk has room for what the placement
assigns to it, the call succeeds. Missing: failures are not rolled back (`C10_false`). -/
theorem C10_fails_only_if_partial {cfgs s} (h : MReach cfgs s) (f : Nat → Nat) (o : Nat) (out : List Bid)
    (hv : (MOp.new f o out).Valid s) {m' out' e}
    (herr : s.mgr.newBlocks f o out = (m', out', .error e)) :
    e = .alloc .badExtAlloc ∧ ∃ asg d dk,
      assign s.mgr.disks f (fun _ => 0) o (out.map Bid.size) = .ok asg ∧
      s.mgr.disks[d]? = some dk ∧ dk.autogrow = false ∧
      dk.freeBytes < (gather d asg (out.map Bid.size)).sum := by
  obtain ⟨lost, hi⟩ := mreach_inv h
  obtain ⟨asg, m1, out1, r, h1, h2, h3, h4, h5, h6, h7, h8⟩ := newBlocks_spec hi f o out hv
  rw [herr] at h4
  cases h4
  rcases h8 with ⟨h, -⟩ | ⟨h, -, d, dk, e1, e2, e3⟩
  · cases h
  · cases h; exact ⟨rfl, asg, d, dk, h1, e1, e2, e3⟩

/-- **C10, partial (b)**: if the placement uses only one disk (always so with one
disk or a single block), a failed allocation leaves disks and statistics unchanged. -/
theorem C10_no_leak_partial {cfgs s} (h : MReach cfgs s) (f : Nat → Nat) (o : Nat) (out : List Bid)
    (hv : (MOp.new f o out).Valid s) (d : Nat) (asg : List Nat)
    (hasg : assign s.mgr.disks f (fun _ => 0) o (out.map Bid.size) = .ok asg)
    (hone : ∀ a ∈ asg, a = d) {m' out' e}
    (herr : s.mgr.newBlocks f o out = (m', out', .error e)) : m' = s.mgr ∧ out' = out := by
  obtain ⟨lost, hi⟩ := mreach_inv h
  obtain ⟨asg', g1, g2, g3, -⟩ := assign_ok s.mgr.disks f (fun _ => 0) o (out.map Bid.size)
      (by intro j h1 h2; exact hv.1 j h1 (by simpa using h2))
  rw [hasg] at g1; cases g1
  simp only [Manager.newBlocks, hasg] at herr
  have hgp := gather_pos (d := d) (asg := asg) (sizes := out.map Bid.size) (by
        intro z hz; obtain ⟨b, hb, rfl⟩ := List.mem_map.1 hz; exact (hv.2 b hb).1)
  cases hal : allocLoop asg (List.range s.mgr.disks.length) s.mgr out with
  | mk m1 rest =>
    obtain ⟨o1, r⟩ := rest
    rw [hal] at herr
    cases r with
    | ok u => simp at herr
    | error e1 =>
      simp only [Prod.mk.injEq] at herr
      obtain ⟨rfl, rfl, -⟩ := herr
      cases asg with
      | nil =>
        exfalso
        have : ∀ (es : List Nat) (m1 : Manager) (o1 : List Bid),
            (allocLoop [] es m1 o1).2.2 = .ok () := by
          intro es
          induction es with
          | nil => intros; rfl
          | cons x xs ihx => intro m1 o1; simp [allocLoop, gather, ihx]
        have h2 := this (List.range s.mgr.disks.length) s.mgr out
        rw [hal] at h2; cases h2
      | cons a as =>
        have had := hone a (by simp)
        have hdl : d < s.mgr.disks.length := had ▸ g3 a (by simp)
        exact allocLoop_single d (a :: as) hone _ List.nodup_range s.mgr out
          (fun dk _ h1 h2 => newBlocks_refuse dk _ h1 h2)
          (fun dk hdk hne hr => by
            obtain ⟨dk', offs, he, -⟩ := newBlocks_ok dk _ (hi.disk d dk hdk).inv _ hne hgp hr
            exact ⟨dk', offs, he⟩)
          hdl (fun x hx => List.mem_range.1 hx) hal

example : ∃ m' out', start2.mgr.newBlocks (fun _ => 1) 0 [raw 5] =
    (m', out', .error (.alloc .badExtAlloc)) ∧ m' = start2.mgr := by
  have ha : assign start2.mgr.disks (fun _ => 1) (fun _ => 0) 0 [5] = .ok [1] := by rfl
  have herr : start2.mgr.newBlocks (fun _ => 1) 0 [raw 5] =
      (start2.mgr, [raw 5], .error (.alloc .badExtAlloc)) := by
    simp only [Manager.newBlocks, show [raw 5].map Bid.size = [5] from rfl, ha]
    rw [show List.range start2.mgr.disks.length = [0, 1] from rfl]
    simp [allocLoop, gather, start2, raw, nb2_refuse, scatter]
  exact ⟨_, _, herr, (C10_no_leak_partial start2_reach _ 0 [raw 5]
    ⟨fun _ _ _ => by decide, by decide⟩ 1 [1] ha (by decide) herr).1⟩

end Foxxll.Mgr
