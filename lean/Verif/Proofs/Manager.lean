import Verif.Spec.Manager
import Verif.Proofs.Alloc3

set_option linter.unusedSimpArgs false

namespace Foxxll.Mgr
open Foxxll.Alloc

/-! ### The placement loop -/

theorem room_iff {disks : List Disk} {bytes : Nat → Nat} {size d : Nat} :
    room disks bytes size d = true ↔ HasRoom disks bytes size d := by
  unfold room HasRoom Disk.hasAvailableSpace
  cases disks[d]? <;> simp

theorem choose_placed (disks : List Disk) (bytes : Nat → Nat) (want size : Nat)
    (hw : want < disks.length) :
    Placed disks bytes want size (choose disks bytes want size) ∧
    choose disks bytes want size < disks.length := by
  unfold choose
  by_cases h : room disks bytes size want = true
  · rw [if_pos h]
    exact ⟨Or.inl ⟨room_iff.1 h, rfl⟩, hw⟩
  · rw [if_neg h]
    have hnr : ¬ HasRoom disks bytes size want := fun hc => h (room_iff.2 hc)
    cases hf : List.find? (room disks bytes size)
        (List.map (fun k => (want + (k + 1)) % disks.length) (List.range (disks.length - 1))) with
    | some d =>
      rw [List.find?_map] at hf
      simp only [Option.map_eq_some_iff] at hf
      obtain ⟨k, hk, rfl⟩ := hf
      rw [List.find?_range_eq_some] at hk
      simp only [Function.comp_apply, List.mem_range] at hk
      obtain ⟨h1, h2, h3⟩ := hk
      refine ⟨Or.inr (Or.inl ⟨hnr, room_iff.1 h1, k + 1, by omega, by omega, rfl, ?_⟩),
        Nat.mod_lt _ (by omega)⟩
      intro a ha hlt hr
      have := h3 (a - 1) (by omega)
      rw [show a - 1 + 1 = a by omega] at this
      rw [room_iff.2 hr] at this
      simp at this
    | none =>
      refine ⟨Or.inr (Or.inr ⟨?_, rfl⟩), hw⟩
      intro d' hd' hr
      rw [List.find?_eq_none] at hf
      by_cases hdw : d' = want
      · subst hdw; exact hnr hr
      · apply hf d' _ (room_iff.2 hr)
        rw [List.mem_map]
        by_cases hlt : want < d'
        · refine ⟨d' - want - 1, by rw [List.mem_range]; omega, ?_⟩
          rw [show want + (d' - want - 1 + 1) = d' by omega, Nat.mod_eq_of_lt hd']
        · refine ⟨d' + disks.length - want - 1, by rw [List.mem_range]; omega, ?_⟩
          rw [show want + (d' + disks.length - want - 1 + 1) = d' + disks.length by omega,
            Nat.add_mod_right, Nat.mod_eq_of_lt hd']

theorem assign_ok (disks : List Disk) (f : Nat → Nat) (bytes : Nat → Nat) (i : Nat)
    (sizes : List Nat) (hf : ∀ j, i ≤ j → j < i + sizes.length → f j < disks.length) :
    ∃ asg, assign disks f bytes i sizes = .ok asg ∧ asg.length = sizes.length ∧
      (∀ a ∈ asg, a < disks.length) ∧
      ∀ k (hk : k < sizes.length) (hk' : k < asg.length),
        Placed disks (fun d => bytes d + assignedBytes d (asg.take k) (sizes.take k))
          (f (i + k)) sizes[k] asg[k] := by
  induction sizes generalizing bytes i with
  | nil => exact ⟨[], rfl, rfl, by simp, by simp⟩
  | cons sz rest ih =>
    have hfi : f i < disks.length := hf i (Nat.le_refl _) (by simp)
    obtain ⟨hp, hlt⟩ := choose_placed disks bytes (f i) sz hfi
    obtain ⟨as, he, hlen, hall, hpl⟩ := ih
      (fun x => if x = choose disks bytes (f i) sz then bytes x + sz else bytes x) (i + 1) (by
        intro j h1 h2; apply hf j (by omega); simp; omega)
    refine ⟨choose disks bytes (f i) sz :: as, ?_, by simp [hlen], ?_, ?_⟩
    · simp only [assign, hfi, if_true, he]
    · intro a ha
      rcases List.mem_cons.1 ha with rfl | ha
      · exact hlt
      · exact hall a ha
    · intro k hk hk'
      cases k with
      | zero => simpa [assignedBytes] using hp
      | succ k =>
        have hk2 : k < rest.length := by simpa using hk
        have hk3 : k < as.length := by simpa using hk'
        have := hpl k hk2 hk3
        rw [show i + 1 + k = i + (k + 1) by omega] at this
        simp only [List.getElem_cons_succ, List.take_succ_cons]
        refine (congrArg (fun g => Placed disks g (f (i + (k + 1))) rest[k] as[k]) (funext fun d => ?_)).mp this
        simp only [assignedBytes, List.zip_cons_cons, List.filter_cons]
        by_cases hd : choose disks bytes (f i) sz = d
        · subst hd; simp; omega
        · simp [hd, Ne.symm hd]

/-! ### The allocation loop -/

/-- entries of the output range whose disk satisfies `P` -/
def sel (P : Nat → Bool) : List Nat → List Bid → List Bid
  | a :: as, b :: bs => if P a then b :: sel P as bs else sel P as bs
  | _, _ => []

theorem scatter_length (d asg offs) (out : List Bid) :
    (scatter d asg offs out).length = out.length := by
  induction asg generalizing offs out with
  | nil => simp [scatter]
  | cons a as ih =>
    cases out with
    | nil => simp [scatter]
    | cons b bs =>
      simp only [scatter]
      split
      · split <;> simp [ih]
      · simp [ih]

theorem scatter_size (d asg offs) (out : List Bid) :
    (scatter d asg offs out).map Bid.size = out.map Bid.size := by
  induction asg generalizing offs out with
  | nil => simp [scatter]
  | cons a as ih =>
    cases out with
    | nil => simp [scatter]
    | cons b bs =>
      simp only [scatter]
      split
      · split <;> simp [ih]
      · simp [ih]

theorem scatter_tmpl (d asg offs) (out : List Bid) :
    (scatter d asg offs out).map Bid.tmpl = out.map Bid.tmpl := by
  induction asg generalizing offs out with
  | nil => simp [scatter]
  | cons a as ih =>
    cases out with
    | nil => simp [scatter]
    | cons b bs =>
      simp only [scatter]
      split
      · split <;> simp [ih]
      · simp [ih]

theorem scatter_sel_ne (d asg offs) (out : List Bid) (P : Nat → Bool) (h : P d = false) :
    sel P asg (scatter d asg offs out) = sel P asg out := by
  induction asg generalizing offs out with
  | nil => simp [scatter]
  | cons a as ih =>
    cases out with
    | nil => simp [scatter]
    | cons b bs =>
      simp only [scatter]
      split
      · rename_i had; subst had
        split <;> simp [sel, h, ih]
      · simp [sel, ih]

theorem scatter_sel_eq (d asg offs) (out : List Bid)
    (h : offs.length = (gather d asg (out.map Bid.size)).length) :
    (sel (fun a => a == d) asg (scatter d asg offs out)).map Bid.block
      = List.zipWith Block.mk offs (gather d asg (out.map Bid.size)) ∧
    ∀ b ∈ sel (fun a => a == d) asg (scatter d asg offs out), b.storage = .managed d := by
  induction asg generalizing offs out with
  | nil => simp [scatter, sel, gather]
  | cons a as ih =>
    cases out with
    | nil => simp [scatter, sel, gather]
    | cons b bs =>
      simp only [scatter, gather, List.map_cons] at h ⊢
      by_cases had : a = d
      · subst had
        simp only [if_true] at h ⊢
        cases offs with
        | nil => simp at h
        | cons o os =>
          have := ih os bs (by simpa using h)
          simp [sel, this.1, Bid.block]
          exact this.2
      · simp only [had, if_false] at h ⊢
        have := ih offs bs h
        simpa [sel, had] using this

/-- per-disk invariant with accounting -/
structure DInv (dk : Disk) (l : List Block) : Prop where
  inv : Inv ⟨dk, l⟩
  acct : dk.freeBytes + liveBytes l = dk.diskBytes

theorem DInv.perm {dk l l'} (h : DInv dk l) (hp : l.Perm l') : DInv dk l' := by
  refine ⟨⟨h.inv.good, fun x => ?_, h.inv.bytes, fun b hb => h.inv.pos b (hp.symm.subset hb)⟩, ?_⟩
  · have := h.inv.part x
    simp only at this ⊢
    rw [← cov_perm (hp.map Block.reg)]; exact this
  · have h1 := h.acct
    have h2 := (hp.map Block.size).sum_nat
    simp only [liveBytes] at h1 ⊢; omega

/-- invariant of the loop over disks -/
structure LInv (n : Nat) (asg : List Nat) (base : Nat → List Block) (done : List Nat)
    (m : Manager) (out : List Bid) : Prop where
  len : m.disks.length = n
  disk : ∀ d dk, m.disks[d]? = some dk →
    DInv dk ((sel (fun a => a == d && decide (d ∈ done)) asg out).map Bid.block ++ base d)
  stor : ∀ d ∈ done, ∀ b ∈ sel (fun a => a == d) asg out, b.storage = .managed d

theorem gather_pos {d asg} {sizes : List Nat} (h : ∀ z ∈ sizes, 0 < z) :
    ∀ z ∈ gather d asg sizes, 0 < z := by
  induction asg generalizing sizes with
  | nil => simp [gather]
  | cons a as ih =>
    cases sizes with
    | nil => simp [gather]
    | cons s ss =>
      have := ih (sizes := ss) (fun z hz => h z (by simp [hz]))
      simp only [gather]
      split
      · intro z hz
        rcases List.mem_cons.1 hz with rfl | hz
        · exact h _ (by simp)
        · exact this z hz
      · exact this

theorem sel_false (asg) (out : List Bid) : sel (fun _ => false) asg out = [] := by
  induction asg generalizing out with
  | nil => rfl
  | cons a as ih => cases out <;> simp [sel, ih]

theorem sel_gather_nil {d asg} {out : List Bid} (h : gather d asg (out.map Bid.size) = []) :
    sel (fun a => a == d) asg out = [] := by
  induction asg generalizing out with
  | nil => rfl
  | cons a as ih =>
    cases out with
    | nil => rfl
    | cons b bs =>
      simp only [gather, List.map_cons] at h
      by_cases had : a = d
      · simp [had] at h
      · simp only [had, if_false] at h
        simp [sel, had, ih h]

/-- total bytes handed out for the disks `ds` -/
def gathered (asg sizes : List Nat) (ds : List Nat) : Nat :=
  (ds.map (fun d => (gather d asg sizes).sum)).sum

/-- what the loop over disks does -/
theorem allocLoop_spec {n : Nat} {asg : List Nat} {base : Nat → List Block} (ds : List Nat) :
    ∀ (done : List Nat) (m : Manager) (out : List Bid),
    LInv n asg base done m out → (∀ b ∈ out, 0 < b.size) →
    (∀ d ∈ ds, d < n ∧ d ∉ done) → ds.Nodup →
    ∃ m' out' r, allocLoop asg ds m out = (m', out', r) ∧
      out'.map Bid.size = out.map Bid.size ∧ out'.map Bid.tmpl = out.map Bid.tmpl ∧
      m'.max = m.max ∧
      ((r = .ok () ∧ LInv n asg base (done ++ ds) m' out' ∧
          m'.total = m.total + gathered asg (out.map Bid.size) ds ∧
          m'.cur = m.cur + gathered asg (out.map Bid.size) ds) ∨
       (r = .error (.alloc .badExtAlloc) ∧ (∃ done', LInv n asg base done' m' out') ∧
          ∃ d ∈ ds, ∃ dk, m.disks[d]? = some dk ∧ dk.autogrow = false ∧
            dk.freeBytes < (gather d asg (out.map Bid.size)).sum)) := by
  induction ds with
  | nil =>
    intro done m out h _ _ _
    exact ⟨m, out, _, rfl, rfl, rfl, rfl, Or.inl ⟨rfl, by simpa using h, by simp [gathered],
      by simp [gathered]⟩⟩
  | cons d ds ih =>
    intro done m out h hpos hds hnd
    obtain ⟨hdn, hdd⟩ := hds d (by simp)
    rw [List.nodup_cons] at hnd
    simp only [allocLoop]
    by_cases hg : gather d asg (out.map Bid.size) = []
    · rw [if_pos hg]
      have hsel := sel_gather_nil hg
      have h' : LInv n asg base (done ++ [d]) m out := by
        refine ⟨h.len, fun e dk he => ?_, fun e he b hb => ?_⟩
        · have := h.disk e dk he
          by_cases hed : e = d
          · subst hed
            simpa [hdd, sel_false, hsel] using this
          · simpa [hed] using this
        · rcases List.mem_append.1 he with he | he
          · exact h.stor e he b hb
          · simp at he; subst he; rw [hsel] at hb; simp at hb
      obtain ⟨m', out', r, h1, h2, h3, h3', h4⟩ := ih (done ++ [d]) m out h' hpos (by
        intro e he
        refine ⟨(hds e (by simp [he])).1, ?_⟩
        have := (hds e (by simp [he])).2
        simp only [List.mem_append, List.mem_singleton, not_or]
        exact ⟨this, fun hc => hnd.1 (hc ▸ he)⟩) hnd.2
      refine ⟨m', out', r, h1, h2, h3, h3', ?_⟩
      rcases h4 with ⟨e1, e2, e3, e4⟩ | ⟨e1, e2, e, he, dk, e3⟩
      · refine Or.inl ⟨e1, by simpa using e2, ?_, ?_⟩
        · simp [gathered, hg] at e3 ⊢; exact e3
        · simp only [gathered, List.map_cons, hg, List.sum_nil, List.sum_cons, Nat.zero_add] at e4 ⊢; exact e4
      · exact Or.inr ⟨e1, e2, e, by simp [he], dk, e3⟩
    · rw [if_neg hg]
      have hlt : d < m.disks.length := by rw [h.len]; exact hdn
      have hget : m.disks[d]? = some m.disks[d] := List.getElem?_eq_getElem hlt
      rw [hget]
      simp only
      generalize hdk : m.disks[d] = dk at hget
      have hdi := h.disk d dk hget
      simp only [hdd, decide_false, Bool.and_false, sel_false, List.map_nil, List.nil_append] at hdi
      have hgp := gather_pos (d := d) (asg := asg) (sizes := out.map Bid.size) (by
        intro z hz; obtain ⟨b, hb, rfl⟩ := List.mem_map.1 hz; exact hpos b hb)
      by_cases hroom : dk.autogrow = true ∨ (gather d asg (out.map Bid.size)).sum ≤ dk.freeBytes
      · obtain ⟨dk', offs, he, hsp⟩ := newBlocks_ok dk (base d) hdi.inv _ hg hgp hroom
        rw [he]
        simp only
        have hse := scatter_sel_eq d asg offs out hsp.len
        have hlen' : dk'.freeBytes + liveBytes (List.zipWith Block.mk offs
            (gather d asg (out.map Bid.size)) ++ base d) = dk'.diskBytes := by
          have := hsp.bytes; have := liveBytes_zip hsp.len; have := hdi.acct
          have := hsp.mono
          rw [liveBytes_append]; omega
        obtain ⟨m', out', r, h1, h2, h3, h3', h4⟩ := ih (done ++ [d])
          { m with disks := m.disks.set d dk',
                   total := m.total + (gather d asg (out.map Bid.size)).sum,
                   cur := m.cur + (gather d asg (out.map Bid.size)).sum }
          (scatter d asg offs out) (by
            refine ⟨by simp [h.len], fun e ek hek => ?_, fun e he b hb => ?_⟩
            · simp only [List.getElem?_set] at hek
              by_cases hed : d = e
              · subst hed
                simp only [if_true, hlt] at hek
                cases hek
                simp only [List.mem_append, List.mem_singleton, or_true, decide_true, Bool.and_true]
                rw [hse.1]
                exact ⟨hsp.inv, hlen'⟩
              · rw [if_neg hed] at hek
                have := h.disk e ek hek
                have hmem : (decide (e ∈ done ++ [d])) = decide (e ∈ done) := by
                  simp [Ne.symm hed]
                rw [hmem, scatter_sel_ne]
                · exact this
                · simp [hed]
            · rcases List.mem_append.1 he with he | he
              · have hed : d ≠ e := fun hc => hdd (hc ▸ he)
                rw [scatter_sel_ne _ _ _ _ _ (by simp [hed])] at hb
                exact h.stor e he b hb
              · simp at he; subst he; exact hse.2 b hb)
          (by
            intro b hb
            have : b.size ∈ (scatter d asg offs out).map Bid.size := List.mem_map.2 ⟨b, hb, rfl⟩
            rw [scatter_size] at this
            obtain ⟨c, hc, hcs⟩ := List.mem_map.1 this
            rw [← hcs]; exact hpos c hc)
          (by
            intro e he
            refine ⟨(hds e (by simp [he])).1, ?_⟩
            have := (hds e (by simp [he])).2
            simp only [List.mem_append, List.mem_singleton, not_or]
            exact ⟨this, fun hc => hnd.1 (hc ▸ he)⟩) hnd.2
        refine ⟨m', out', r, h1, by rw [h2, scatter_size], by rw [h3, scatter_tmpl], h3', ?_⟩
        rw [scatter_size] at h4
        rcases h4 with ⟨e1, e2, e3, e4⟩ | ⟨e1, e2, e, he', ek, e3, e4⟩
        · refine Or.inl ⟨e1, by simpa using e2, ?_, ?_⟩
          · rw [e3]; simp only [gathered, List.map_cons, List.sum_cons]; omega
          · rw [e4]; simp only [gathered, List.map_cons, List.sum_cons]; omega
        · refine Or.inr ⟨e1, e2, e, by simp [he'], ek, ?_, e4⟩
          have hed : d ≠ e := fun hc => hnd.1 (hc ▸ he')
          simpa [List.getElem?_set, hed] using e3
      · have hag : dk.autogrow = false := by simpa using fun hc => hroom (Or.inl hc)
        have hlt2 : dk.freeBytes < (gather d asg (out.map Bid.size)).sum := by omega
        rw [newBlocks_refuse _ _ hag hlt2]
        simp only
        have hset : m.disks.set d dk = m.disks := by
          rw [← hdk]; exact List.set_getElem_self hlt
        refine ⟨_, _, _, rfl, rfl, rfl, rfl, Or.inr ⟨rfl, ⟨done, ?_⟩, d, by simp, dk, hget, hag, hlt2⟩⟩
        rw [hset]; exact h

end Foxxll.Mgr
