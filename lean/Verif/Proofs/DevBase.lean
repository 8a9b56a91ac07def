import Verif.Proofs.DevStore
/-
What holds in all histories of an orderly or disorderly client: nothing undefined happens; failed requests.  Files of deleted blocks.
-/
namespace Foxxll.DStore
open Foxxll
open Foxxll.Store (Req Wrote Hist Apart upd upd_same upd_other Quiet signal_quiet cancelTake_quiet cancel_quiet work_quiet work_serving push_some upd_cases bytesOf bytesOf_step live_inside delete_live delete_sub new_live)

variable {k : Queue.Kind} {qid : Nat → Nat} {cfgs : List (Nat × Bool)} {F : Nat → Dev}

structure Base (k : Queue.Kind) (qid : Nat → Nat) (cfgs : List (Nat × Bool)) (s : St) : Prop where
  mgr : Mgr.MReach cfgs s.m
  que : ∀ i, Queue.Reach k (fun _ _ => True) (s.qs i)
  spc : ∀ i, (s.qs i).spc = .none
  sub : ∀ i x w, (x, w) ∈ (s.qs i).sub → ∃ q, s.reqs x = some q ∧ q.write = w ∧ qid q.disk = i
  ok : ∀ d, (s.files d).Ok (bytesOf s.m d)
  rng : ∀ x q, s.reqs x = some q → 0 < q.size ∧ q.off + q.size ≤ bytesOf s.m q.disk
  dead : s.dead = false
  buf : ∀ x q, Pending qid s x → s.reqs x = some q → (s.mem q.buf).length = q.size
  fld : ∀ x ∈ s.failed, ∃ q, s.reqs x = some q ∧ x ∈ (s.qs (qid q.disk)).served

theorem base_init {m : Mgr.Manager} {files : Nat → Dev} {junk : Nat → UInt8} {mem : Nat → List UInt8} (hm : Mgr.Manager.create cfgs = .ok m)
    (ht : ∀ d, (files d).Opened) : Base k qid cfgs (init m files junk mem) where
  mgr := .init hm
  que := fun _ => .start
  spc := fun _ => rfl
  sub := by intro i x w h; simp [init, Queue.init] at h
  ok := fun d => grown_ok (opened_ok (ht d)) (Nat.zero_le _) junk
  rng := by intro x q h; simp [init] at h
  dead := rfl
  buf := by intro x q h h'; simp [init] at h'
  fld := by intro x h; simp [init] at h

theorem pending_quiet {s : St} {i : Nat} {q : Queue.St} (hq : Quiet (s.qs i) q) {x : Nat} (h : Pending qid { s with qs := upd s.qs i q } x) : Pending qid s x := by
  obtain ⟨q', h1, h2, h3⟩ := h
  refine ⟨q', h1, ?_, ?_⟩
  · have := upd_cases (P := fun j (a : Queue.St) => a.served = (s.qs j).served) hq.served (fun _ => rfl) (qid q'.disk)
    rw [← this]; exact h2
  · intro hc
    exact h3 (upd_cases (P := fun j (a : Queue.St) => ∀ x ∈ (s.qs j).cancelled, x ∈ a.cancelled) hq.cancelled (fun _ _ h => h) (qid q'.disk) x hc)

theorem Base.quiet {s : St} (I : Base k qid cfgs s) {i : Nat} {op : Queue.Op} {q : Queue.St}
    (hl : Queue.Legal (s.qs i) op) (hs : Queue.step k (s.qs i) op = .ok q) (hq : Quiet (s.qs i) q) : Base k qid cfgs { s with qs := upd s.qs i q } := by
  have hsub : ∀ j, (upd s.qs i q j).sub = (s.qs j).sub := upd_cases (P := fun j (a : Queue.St) => a.sub = (s.qs j).sub) hq.sub (fun _ => rfl)
  have hsrv : ∀ j, (upd s.qs i q j).served = (s.qs j).served := upd_cases (P := fun j (a : Queue.St) => a.served = (s.qs j).served) hq.served (fun _ => rfl)
  refine ⟨I.mgr, ?_, ?_, ?_, I.ok, I.rng, I.dead, ?_, ?_⟩
  · exact upd_cases (P := fun _ (a : Queue.St) => Queue.Reach k (fun _ _ => True) a) (.next op (I.que i) hl trivial hs) I.que
  · exact upd_cases (P := fun _ (a : Queue.St) => a.spc = .none) (by rw [hq.spc]; exact I.spc i) I.spc
  · intro j x w hx
    rw [hsub] at hx
    exact I.sub j x w hx
  · intro x q' h1 h2; exact I.buf x q' (pending_quiet hq h1) h2
  · intro x hx
    obtain ⟨q', h1, h2⟩ := I.fld x hx
    exact ⟨q', h1, by rw [hsrv]; exact h2⟩

theorem Base.serving {s : St} (I : Base k qid cfgs s) {i x : Nat} (hw : (s.qs i).wpc = .serving x) :
    ∃ q, s.reqs x = some q ∧ qid q.disk = i ∧ Pending qid s x := by
  have ho := Queue.reach_ord (I.que i)
  have hst : x ∈ (s.qs i).started := by rw [ho.srv, hw]; simp [Queue.cur]
  obtain ⟨⟨y, w⟩, h1, h2⟩ := List.mem_map.1 (ho.st x hst)
  simp only at h2; subst h2
  obtain ⟨q, g1, g2, g3⟩ := I.sub i y w h1
  refine ⟨q, g1, g3, q, g1, ?_, ?_⟩
  · rw [g3]
    intro hc
    have := ho.sd
    rw [ho.srv, hw, List.nodup_append] at this
    exact this.2.2 y hc y (by simp [Queue.cur]) rfl
  · rw [g3]
    intro hc
    have : y ∈ Queue.due (s.qs i) := (Queue.due_perm ho).mem_iff.2 (by simp [hst])
    simp [Queue.due] at this
    exact this.2 hc

/-- After the worker is done with a request. -/
theorem pending_served {s s' : St} {i x : Nat} {q' : Queue.St} (hqs : s'.qs = s.qs) (hr : s'.reqs = s.reqs) (he : q' = { s.qs i with served := (s.qs i).served ++ [x], wpc := .check }) {y : Nat}
    (h : Pending qid { s' with qs := upd s'.qs i q' } y) : Pending qid s y := by
  obtain ⟨q2, h1, h2, h3⟩ := h
  simp only [hqs, hr] at h1 h2 h3
  refine ⟨q2, h1, ?_, ?_⟩
  · intro hc
    apply h2
    exact upd_cases (P := fun j (a : Queue.St) => ∀ x ∈ (s.qs j).served, x ∈ a.served) (by rw [he]; intro x hx; simp [hx]) (fun _ _ h => h) _ y hc
  · have := upd_cases (P := fun j (a : Queue.St) => a.cancelled = (s.qs j).cancelled) (f := s.qs) (i := i) (a := q') (by rw [he]) (fun _ => rfl) (qid q2.disk)
    rw [← this]; exact h3

theorem Base.moved {s : St} (I : Base k qid cfgs s) {i x : Nat} (hw : (s.qs i).wpc = .serving x) (os : Os) :
    ∃ q, s.reqs x = some q ∧ qid q.disk = i ∧ Pending qid s x ∧ Moved (bytesOf s.m q.disk) s (s.serve x os) x q := by
  obtain ⟨q, g1, g2, g3⟩ := I.serving hw
  exact ⟨q, g1, g2, g3, serve_moved os g1 (I.buf x q g3 g1) (I.rng x q g1).1 (I.rng x q g1).2 (I.ok q.disk)⟩

theorem Base.step {s s' : St} (I : Base k qid cfgs s) {op : Op} (ha : Allowed k qid s op) (hs : DStore.step k qid s op = some s') : Base k qid cfgs s' := by
  cases op with
  | mgr op junk rm =>
    simp only [DStore.step] at hs
    injection hs with hs
    have M := manage_managed I.mgr I.ok ha.1 junk rm
    rw [hs] at M
    refine ⟨by rw [M.m]; exact I.mgr.step ha.1, by rw [M.qs]; exact I.que, by rw [M.qs]; exact I.spc, ?_, M.ok, ?_, by rw [M.dead]; exact I.dead, ?_, ?_⟩
    · rw [M.qs, M.reqs]; exact I.sub
    · intro x q hx
      rw [M.reqs] at hx
      rw [M.m]
      exact ⟨(I.rng x q hx).1, Nat.le_trans (I.rng x q hx).2 (bytesOf_step _ _ _)⟩
    · rintro x q ⟨q1, h1, h2, h3⟩ hx
      rw [M.qs] at h2 h3
      rw [M.reqs] at h1 hx
      rw [M.mem]; exact I.buf x q ⟨q1, h1, h2, h3⟩ hx
    · rw [M.qs, M.reqs, M.failed]; exact I.fld
  | fill buf data =>
    simp only [DStore.step] at hs
    injection hs with hs; subst hs
    refine ⟨I.mgr, I.que, I.spc, I.sub, I.ok, I.rng, I.dead, ?_, I.fld⟩
    intro x q h1 h2
    have h1 : Pending qid s x := h1
    show (upd s.mem buf data q.buf).length = q.size
    rw [upd_other _ _ (ha x q h1 h2)]
    exact I.buf x q h1 h2
  | io r w b buf =>
    simp only [DStore.step] at hs
    split at hs
    · rename_i d hd
      obtain ⟨q, h1, h2⟩ := queue_some hs
      subst h2
      obtain ⟨p1, p2, p3, p4⟩ := push_some h1
      obtain ⟨ha1, ha2, ha3, _, _⟩ := ha
      have hcase : ∀ x q', upd s.reqs r (some ⟨d, w, b.off, b.size, buf⟩) x = some q' → (x = r ∧ q' = ⟨d, w, b.off, b.size, buf⟩) ∨ (x ≠ r ∧ s.reqs x = some q') := by
        intro x q' hx
        by_cases e : x = r
        · subst e; rw [upd_same] at hx; injection hx with hx; exact .inl ⟨rfl, hx.symm⟩
        · rw [upd_other _ _ e] at hx; exact .inr ⟨e, hx⟩
      have hkeep : ∀ y q', s.reqs y = some q' → upd s.reqs r (some ⟨d, w, b.off, b.size, buf⟩) y = some q' := by
        intro y q' hy
        rw [upd_other _ _ (fun e => by subst e; rw [ha1] at hy; cases hy)]; exact hy
      have hsrv : ∀ j, (upd s.qs (qid d) q j).served = (s.qs j).served := upd_cases (P := fun j (a : Queue.St) => a.served = (s.qs j).served) p2 (fun _ => rfl)
      have hcan : ∀ j, (upd s.qs (qid d) q j).cancelled = (s.qs j).cancelled := upd_cases (P := fun j (a : Queue.St) => a.cancelled = (s.qs j).cancelled) p3 (fun _ => rfl)
      refine ⟨I.mgr, ?_, ?_, ?_, I.ok, ?_, I.dead, ?_, ?_⟩
      · refine upd_cases (P := fun _ (a : Queue.St) => Queue.Reach k (fun _ _ => True) a) (.next (.push r w) (I.que _) ⟨?_, I.spc _⟩ trivial h1) I.que
        intro hr
        obtain ⟨⟨y, w'⟩, g1, g2⟩ := List.mem_map.1 hr
        simp only at g2; subst g2
        obtain ⟨q1, e1, _⟩ := I.sub _ _ _ g1
        rw [ha1] at e1; cases e1
      · exact upd_cases (P := fun _ (a : Queue.St) => a.spc = .none) (by rw [p4]; exact I.spc _) I.spc
      · intro i x w' hx
        have hold : (x, w') ∈ (s.qs i).sub → ∃ q, upd s.reqs r (some ⟨d, w, b.off, b.size, buf⟩) x = some q ∧ q.write = w' ∧ qid q.disk = i := by
          intro hx
          obtain ⟨q', g1, g2, g3⟩ := I.sub i x w' hx
          exact ⟨q', hkeep _ _ g1, g2, g3⟩
        by_cases e : i = qid d
        · subst e
          simp only [upd_same, p1, List.mem_append, List.mem_singleton, Prod.mk.injEq] at hx
          rcases hx with hx | ⟨h1, h2⟩
          · exact hold hx
          · subst h1; subst h2
            exact ⟨_, upd_same _ _ _, rfl, rfl⟩
        · simp only [upd_other _ _ e] at hx
          exact hold hx
      · intro x q' hx
        rcases hcase x q' hx with ⟨h1, h2⟩ | ⟨h1, h2⟩
        · subst h2
          obtain ⟨d', e1, e2, e3⟩ := live_inside I.mgr ha2
          rw [hd] at e1; injection e1 with e1; subst e1
          exact ⟨e2, e3⟩
        · exact I.rng x q' h2
      · rintro x q' ⟨q1, h1, h2, h3⟩ hx
        rcases hcase x q' hx with ⟨g1, g2⟩ | ⟨g1, g2⟩
        · subst g2; exact ha3
        · rcases hcase x q1 h1 with ⟨e1, _⟩ | ⟨_, e2⟩
          · exact absurd e1 g1
          · exact I.buf x q' ⟨q1, e2, by rw [← hsrv]; exact h2, by rw [← hcan]; exact h3⟩ g2
      · intro x hx
        obtain ⟨q', g1, g2⟩ := I.fld x hx
        exact ⟨q', hkeep _ _ g1, by rw [hsrv]; exact g2⟩
    · cases hs
  | cancel r =>
    simp only [DStore.step] at hs
    split at hs
    · rename_i q hq
      obtain ⟨q', h1, h2⟩ := queue_some hs
      subst h2
      refine I.quiet (op := .cancel r q.write) ⟨?_, I.spc _⟩ h1 (cancel_quiet h1)
      intro w' hw'
      obtain ⟨q2, g1, g2, _⟩ := I.sub _ _ _ hw'
      rw [hq] at g1; injection g1 with g1; subst g1
      exact g2.symm
    · cases hs
  | run i qop os =>
    cases qop with
    | signal =>
      simp only [DStore.step] at hs
      obtain ⟨q', h1, h2⟩ := queue_some hs
      subst h2
      exact I.quiet (op := .signal) trivial h1 (signal_quiet h1)
    | cancelTake =>
      simp only [DStore.step] at hs
      obtain ⟨q', h1, h2⟩ := queue_some hs
      subst h2
      exact I.quiet (op := .cancelTake) trivial h1 (cancelTake_quiet h1)
    | work =>
      simp only [DStore.step] at hs
      obtain ⟨q', h1, h2⟩ := queue_some hs
      subst h2
      by_cases hw : ∃ x, (s.qs i).wpc = .serving x
      · obtain ⟨x, hw⟩ := hw
        have e : s.transfer i os = s.serve x os := by unfold St.transfer; rw [hw]
        rw [e] at h1 ⊢
        obtain ⟨q, g1, g2, g3, M⟩ := I.moved hw os
        rw [M.qs] at h1
        have he := work_serving hw h1
        have hsub : ∀ j, (upd s.qs i q' j).sub = (s.qs j).sub := upd_cases (P := fun j (a : Queue.St) => a.sub = (s.qs j).sub) (by rw [he]) (fun _ => rfl)
        have hsrv : ∀ j, ∀ x ∈ (s.qs j).served, x ∈ (upd s.qs i q' j).served :=
          upd_cases (P := fun j (a : Queue.St) => ∀ x ∈ (s.qs j).served, x ∈ a.served) (by rw [he]; intro x hx; simp [hx]) (fun _ _ h => h)
        refine ⟨?_, ?_, ?_, ?_, ?_, ?_, ?_, ?_, ?_⟩
        · show Mgr.MReach cfgs (s.serve x os).m
          rw [M.m]; exact I.mgr
        · show ∀ j, Queue.Reach k (fun _ _ => True) (upd (s.serve x os).qs i q' j)
          rw [M.qs]
          exact upd_cases (P := fun _ (a : Queue.St) => Queue.Reach k (fun _ _ => True) a) (.next .work (I.que i) trivial trivial h1) I.que
        · show ∀ j, (upd (s.serve x os).qs i q' j).spc = .none
          rw [M.qs]
          exact upd_cases (P := fun _ (a : Queue.St) => a.spc = .none) (by rw [he]; exact I.spc i) I.spc
        · intro j y w hy
          simp only [M.qs, hsub] at hy
          show ∃ q, (s.serve x os).reqs y = some q ∧ _
          rw [M.reqs]; exact I.sub j y w hy
        · intro d
          show ((s.serve x os).files d).Ok (bytesOf (s.serve x os).m d)
          rw [M.m]
          by_cases hd : d = q.disk
          · subst hd; exact M.ok
          · rw [M.other d hd]; exact I.ok d
        · intro y q2 hy
          simp only [M.reqs] at hy
          show _ ∧ _ ≤ bytesOf (s.serve x os).m q2.disk
          rw [M.m]; exact I.rng y q2 hy
        · show (s.serve x os).dead = false
          rw [M.dead]; exact I.dead
        · intro y q2 h1 h2
          have hp := pending_served M.qs M.reqs he h1
          simp only [M.reqs] at h2
          show ((s.serve x os).mem q2.buf).length = q2.size
          rw [← I.buf y q2 hp h2]
          by_cases hb : q2.buf = q.buf
          · rw [hb]; exact M.len
          · rw [M.bufs _ hb]
        · intro y hy
          show ∃ q, (s.serve x os).reqs y = some q ∧ y ∈ (upd (s.serve x os).qs i q' (qid q.disk)).served
          rw [M.reqs, M.qs]
          rcases M.only y hy with h | h
          · subst h
            exact ⟨q, g1, by rw [g2, upd_same, he]; simp⟩
          · obtain ⟨q2, p1, p2⟩ := I.fld y h
            exact ⟨q2, p1, hsrv _ _ p2⟩
      · have hw' : ∀ x, (s.qs i).wpc ≠ .serving x := fun x hx => hw ⟨x, hx⟩
        have e : s.transfer i os = s := by
          unfold St.transfer
          split
          · rename_i r hr; exact absurd hr (hw' r)
          · rfl
        rw [e] at h1 ⊢
        exact I.quiet (op := .work) trivial h1 (work_quiet hw' h1)
    | _ => simp [DStore.step] at hs

theorem life_base {P : St → Op → Prop} {s : St} {h : Hist} (hl : Life k qid cfgs F P s h) : Base k qid cfgs s := by
  induction hl with
  | start hm ht => exact base_init hm ht
  | next op _ ha _ hs ih => exact ih.step ha hs

/-! ### Transfers without failures of the operating system -/

theorem serve_fine {n : Nat} {d : Dev} (h : d.Ok n) {os : Os} (w : Bool) {buf : List UInt8} {off bytes : Nat} (h0 : 0 < bytes) (hi : off + bytes ≤ n)
    (hl : buf.length = bytes) (hf : Fine os off bytes d) : ∃ d' b', d.serve os w buf off bytes = .done d' b' := by
  cases d with
  | sys f =>
    obtain ⟨hw, hn⟩ := h
    obtain ⟨h1, h2, _⟩ := Files.C33_errors os.sys hw buf off bytes (by omega) hf.1 hf.2
    cases w with
    | true =>
      obtain ⟨f', h1⟩ := h1
      exact ⟨.sys f', buf, by simp only [Dev.serve, if_true, h1]⟩
    | false =>
      obtain ⟨b', h2⟩ := h2 (by omega)
      exact ⟨.sys f, b', by simp only [Dev.serve, Bool.false_eq_true, if_false, h2]⟩
  | mmap page f =>
    obtain ⟨hp, hw, hn⟩ := h
    obtain ⟨h1, h2, h3⟩ := hf
    obtain ⟨⟨b', g1, _⟩, ⟨f', g2, _⟩⟩ := Files.C64_partial hp f buf off bytes h0 h3 (by omega) (by omega)
    cases w with
    | true => exact ⟨.mmap page f', buf, by simp only [Dev.serve, h1, h2, g2]⟩
    | false => exact ⟨.mmap page f, b', by simp only [Dev.serve, h1, h2, g1]⟩
  | mem m =>
    have hg := serve_mem h os w h0 hi hl
    have hn : n ≤ (m.ptr.getD []).length := h
    cases hp : m.ptr with
    | none => rw [hp] at hn; simp at hn; omega
    | some l =>
      rw [hp] at hn
      simp only [Option.getD_some] at hn
      cases w with
      | true =>
        have ht : buf.take bytes = buf := List.take_of_length_le (by omega)
        simp only [Dev.serve, if_true, ht, Files.Mem.write, hp]
        rw [if_pos (by omega)]
        exact ⟨_, _, rfl⟩
      | false =>
        simp only [Dev.serve, Bool.false_eq_true, if_false, Files.Mem.read, hp]
        rw [if_pos (by omega)]
        exact ⟨_, _, rfl⟩
  | fpb mode pre fs =>
    obtain ⟨hm1, hm2, hm3, hw⟩ := h
    obtain ⟨f1, f2, f3, f4⟩ := hf
    simp only [Dev.serve, Files.fpbServe, f1, Bool.false_eq_true, if_false]
    have hopen : ∃ f0, Files.openFile mode (fs (Files.filenameForBlock pre off)) = some f0 := by
      cases hf : fs (Files.filenameForBlock pre off) with
      | none => exact ⟨Files.emptyFile, by simp [Files.openFile, hm3]⟩
      | some f => exact ⟨f, by simp [Files.openFile, hm2]⟩
    obtain ⟨f0, ho⟩ := hopen
    rw [ho]
    simp only [Files.setSize, hm1, f2, Bool.false_eq_true, if_false, Bool.and_false]
    obtain ⟨h1, h2, _⟩ := Files.C33_errors os.sys (Files.truncate_wf f0 bytes) buf 0 bytes (by omega) f3 (by omega)
    cases w with
    | true =>
      obtain ⟨f', h1⟩ := h1
      simp only [if_true, h1]
      exact ⟨_, _, rfl⟩
    | false =>
      obtain ⟨b', h2⟩ := h2 (show 0 < bytes from h0)
      simp only [Bool.false_eq_true, if_false, h2]
      exact ⟨_, _, rfl⟩

/-! ### Files of deleted blocks -/

structure Tidy (qid : Nat → Nat) (d : Nat) (mode : Files.Mode) (pre : List Char) (s : St) : Prop where
  pend : ∀ x q, Pending qid s x → s.reqs x = some q → ∃ b ∈ s.m.live, q.On b
  fs : ∃ fs, s.files d = .fpb mode pre fs ∧ ∀ off f, fs (Files.filenameForBlock pre off) = some f → ∃ b ∈ s.m.live, b.storage = .managed d ∧ b.off = off

theorem grown_fpb {n n' : Nat} {junk : Nat → UInt8} {mode : Files.Mode} {pre : List Char} {fs : Files.FS} :
    grown n n' junk (.fpb mode pre fs) = .fpb mode pre fs := by
  unfold grown; split <;> rfl

theorem serve_fpb_fs {mode : Files.Mode} {pre : List Char} {fs : Files.FS} {s : St} {x : Nat} {q : Req} (os : Os) (hq : s.reqs x = some q)
    (hd : s.files q.disk = .fpb mode pre fs) :
    ∃ fs', (s.serve x os).files q.disk = .fpb mode pre fs' ∧ ∀ nm, nm ≠ Files.filenameForBlock pre q.off → fs' nm = fs nm := by
  unfold St.serve
  rw [hq]
  simp only [hd, Dev.serve]
  refine ⟨(Files.fpbServe mode ⟨os.openFails, os.truncFails, os.sys⟩ pre fs q.write (s.mem q.buf) q.off q.size).fs, ?_,
    fun nm hn => Files.fpbServe_other mode _ pre fs q.write _ q.off q.size nm hn⟩
  by_cases ht : (Files.fpbServe mode ⟨os.openFails, os.truncFails, os.sys⟩ pre fs q.write (s.mem q.buf) q.off q.size).threw = true
  · rw [if_pos ht]
    exact upd_same _ _ _
  · rw [if_neg ht]
    exact upd_same _ _ _

theorem Tidy.step {s s' : St} {d : Nat} {mode : Files.Mode} {pre : List Char} (T : Tidy qid d mode pre s) (I : Base k qid cfgs s) {op : Op}
    (ha : Allowed k qid s op) (hc : Clean qid s op) (hs : DStore.step k qid s op = some s') : Tidy qid d mode pre s' := by
  obtain ⟨fs, hfs, hfile⟩ := T.fs
  have hquiet : ∀ {i : Nat} {q : Queue.St}, Quiet (s.qs i) q → Tidy qid d mode pre { s with qs := upd s.qs i q } :=
    fun hq => ⟨fun x q h1 h2 => T.pend x q (pending_quiet hq h1) h2, fs, hfs, hfile⟩
  cases op with
  | mgr op junk rm =>
    simp only [DStore.step] at hs
    injection hs with hs
    have M := manage_managed I.mgr I.ok ha.1 junk rm
    have hm := M.m
    rw [hs] at M
    have hp : ∀ x, Pending qid s' x → Pending qid s x := by
      rintro x ⟨q1, h1, h2, h3⟩
      rw [M.qs] at h2 h3
      rw [M.reqs] at h1
      exact ⟨q1, h1, h2, h3⟩
    cases op with
    | new f o out =>
      refine ⟨fun x q h1 h2 => ?_, fs, ?_, fun off f hf => ?_⟩
      · obtain ⟨b, hb, hon⟩ := T.pend x q (hp x h1) (by rw [← M.reqs]; exact h2)
        exact ⟨b, by rw [M.m]; exact new_live hb, hon⟩
      · rw [← hs]
        show grown _ _ junk (s.files d) = _
        rw [hfs, grown_fpb]
      · obtain ⟨b, hb, hon⟩ := hfile off f hf
        exact ⟨b, by rw [M.m]; exact new_live hb, hon⟩
    | delete c =>
      obtain ⟨hrm, hreq⟩ := hc c junk rm rfl
      subst hrm
      refine ⟨fun x q h1 h2 => ?_, ?_⟩
      · rw [M.reqs] at h2
        obtain ⟨b, hb, hon⟩ := T.pend x q (hp x h1) h2
        refine ⟨b, ?_, hon⟩
        rw [M.m]
        exact delete_live hb (fun e => by subst e; exact hreq x q (hp x h1) h2 hon)
      · rw [← hs]
        unfold St.manage
        simp only
        by_cases hok : ∃ m', s.m.mgr.deleteBlock c = .ok m'
        · obtain ⟨m', hok⟩ := hok
          obtain ⟨d', e1, e2, e3⟩ := live_inside I.mgr (b := c) ha.1
          rw [e1, hok]
          simp only
          by_cases ed : d' = d
          · subst ed
            rw [hfs, grown_fpb]
            simp only [Dev.discard, upd_same]
            refine ⟨_, rfl, fun off f hf => ?_⟩
            simp only [Files.fpbDiscard, Bool.false_eq_true, if_false, Files.FS.set] at hf
            split at hf
            · cases hf
            · rename_i hne
              obtain ⟨b, hb, hon⟩ := hfile off f hf
              exact ⟨b, delete_live hb (fun e => by subst e; rw [hon.2] at hne; exact hne rfl), hon⟩
          · have hkeep : ∀ off f, fs (Files.filenameForBlock pre off) = some f →
                ∃ b ∈ (s.m.step (.delete c)).live, b.storage = .managed d ∧ b.off = off := by
              intro off f hf
              obtain ⟨b, hb, hon⟩ := hfile off f hf
              refine ⟨b, delete_live hb (fun e => ?_), hon⟩
              subst e
              rw [e1] at hon
              injection hon.1 with h1
              exact ed h1
            split
            · exact ⟨fs, (by simp only [upd_other _ _ (Ne.symm ed)]; rw [hfs, grown_fpb]), hkeep⟩
            · exact ⟨fs, (by simp only; rw [hfs, grown_fpb]), hkeep⟩
        · have hlive : (s.m.step (.delete c)).live = s.m.live := by
            simp only [Mgr.MSys.step]
            split
            · rename_i m' hm'; exact absurd ⟨m', hm'⟩ hok
            · rfl
          have hkeep : ∀ off f, fs (Files.filenameForBlock pre off) = some f →
              ∃ b ∈ (s.m.step (.delete c)).live, b.storage = .managed d ∧ b.off = off := by
            rw [hlive]; exact hfile
          split
          · rename_i m' _ hm'; exact absurd ⟨m', hm'⟩ hok
          · exact ⟨fs, (by simp only; rw [hfs, grown_fpb]), hkeep⟩
  | fill buf data =>
    simp only [DStore.step] at hs
    injection hs with hs; subst hs
    exact ⟨T.pend, fs, hfs, hfile⟩
  | io r w b buf =>
    simp only [DStore.step] at hs
    split at hs
    · rename_i d' hd
      obtain ⟨q, h1, h2⟩ := queue_some hs
      subst h2
      obtain ⟨p1, p2, p3, p4⟩ := push_some h1
      refine ⟨?_, fs, hfs, hfile⟩
      rintro x q' ⟨q1, g1, g2, g3⟩ hx
      simp only at g1 g2 g3 hx
      by_cases e : x = r
      · subst e
        rw [upd_same] at hx
        injection hx with hx; subst hx
        exact ⟨b, ha.2.1, hd, rfl, rfl⟩
      · rw [upd_other _ _ e] at g1 hx
        refine T.pend x q' ⟨q1, g1, ?_, ?_⟩ hx
        · have := upd_cases (P := fun j (a : Queue.St) => a.served = (s.qs j).served) p2 (fun _ => rfl) (qid q1.disk)
          rw [← this]; exact g2
        · have := upd_cases (P := fun j (a : Queue.St) => a.cancelled = (s.qs j).cancelled) p3 (fun _ => rfl) (qid q1.disk)
          rw [← this]; exact g3
    · cases hs
  | cancel r =>
    simp only [DStore.step] at hs
    split at hs
    · obtain ⟨q', h1, h2⟩ := queue_some hs
      subst h2
      exact hquiet (cancel_quiet h1)
    · cases hs
  | run i qop os =>
    cases qop with
    | signal =>
      simp only [DStore.step] at hs
      obtain ⟨q', h1, h2⟩ := queue_some hs
      subst h2
      exact hquiet (signal_quiet h1)
    | cancelTake =>
      simp only [DStore.step] at hs
      obtain ⟨q', h1, h2⟩ := queue_some hs
      subst h2
      exact hquiet (cancelTake_quiet h1)
    | work =>
      simp only [DStore.step] at hs
      obtain ⟨q', h1, h2⟩ := queue_some hs
      subst h2
      by_cases hw : ∃ x, (s.qs i).wpc = .serving x
      · obtain ⟨x, hw⟩ := hw
        have e : s.transfer i os = s.serve x os := by unfold St.transfer; rw [hw]
        rw [e] at h1 ⊢
        obtain ⟨q, g1, g2, g3, M⟩ := I.moved hw os
        rw [M.qs] at h1
        have he := work_serving hw h1
        refine ⟨fun y q2 h1 h2 => ?_, ?_⟩
        · have hp := pending_served M.qs M.reqs he h1
          simp only [M.reqs] at h2
          show ∃ b ∈ (s.serve x os).m.live, _
          rw [M.m]; exact T.pend y q2 hp h2
        · show ∃ fs, (s.serve x os).files d = _ ∧ ∀ off f, _ → ∃ b ∈ (s.serve x os).m.live, _
          rw [M.m]
          by_cases ed : d = q.disk
          · subst ed
            obtain ⟨fs', e1, e2⟩ := serve_fpb_fs os g1 hfs
            refine ⟨fs', e1, fun off f hf => ?_⟩
            by_cases hn : Files.filenameForBlock pre off = Files.filenameForBlock pre q.off
            · obtain ⟨b, hb, hon⟩ := T.pend x q g3 g1
              exact ⟨b, hb, hon.1, by rw [hon.2.1]; exact (name_inj' hn).symm⟩
            · rw [e2 _ hn] at hf
              exact hfile off f hf
          · rw [M.other d ed]
            exact ⟨fs, hfs, hfile⟩
      · have hw' : ∀ x, (s.qs i).wpc ≠ .serving x := fun x hx => hw ⟨x, hx⟩
        have e : s.transfer i os = s := by
          unfold St.transfer
          split
          · rename_i r hr; exact absurd hr (hw' r)
          · rfl
        rw [e] at h1 ⊢
        exact hquiet (work_quiet hw' h1)
    | _ => simp [DStore.step] at hs

theorem life_tidy {s : St} {h : Hist} {d : Nat} {mode : Files.Mode} {pre : List Char} {fs : Files.FS} (hl : Life k qid cfgs F (Clean qid) s h)
    (hd : F d = .fpb mode pre fs) (he : ∀ off, fs (Files.filenameForBlock pre off) = none) : Tidy qid d mode pre s := by
  induction hl with
  | start hm ht =>
    refine ⟨fun x q _ h => by simp [init] at h, fs, ?_, fun off f hf => by rw [he] at hf; cases hf⟩
    show grown _ _ _ (F d) = _
    rw [hd, grown_fpb]
  | next op hl ha hc hs ih => exact ih.step (life_base hl) ha hc hs

end Foxxll.DStore
