import Verif.Proofs.NrefCheck
/-
Property C151: diagnostics of requests.

Full statement: `serve` warns that "reference to the request is lost" exactly if nobody refers to the request any more; the test itself is
safe; the test of alignment reports exactly the quantities that are not multiples of the block alignment.
-/
namespace Foxxll.NrefCheck
open Foxxll.Life

/-- **C151, false**: a client that gives up its pointer without waiting gets both warnings, although nothing is lost: the worker
refers to the request, serves and completes it, and the object is deleted after its last use. -/
theorem C151_false : ∃ fo s, Reach fo s ∧ checks s 1 = some (false, 0) ∧ checkNref s 0 = .ok true ∧ .loc 1 0 ∈ s.ptrs ∧
    ∃ s1, step s (.work 1) = .ok s1 ∧ checks s1 1 = some (true, 0) ∧ checkNref s1 0 = .ok true ∧
    ∃ s2, run s (served 1) = .ok s2 ∧ (s2.reqs 0).phase = .ready ∧ (s2.reqs 0).alive = false ∧ s2.ptrs = [] := by
  have h := Reach.next (fileOf := fun _ => 0) (.take 1 0) (.next (.drop 0 0) (.next (.submit 0 0 0 false false) .start ⟨rfl, rfl, rfl⟩ rfl) trivial rfl) trivial rfl
  exact ⟨_, _, h, rfl, rfl, List.mem_singleton.2 rfl, _, rfl, rfl, rfl, _, rfl, rfl, rfl, rfl⟩

/-- **C151, partial**: in all executions of legal clients the test is safe, also the use of the file in the message, and it warns exactly if nobody except the worker
refers to the request.  The worker does, so the request is never lost. -/
theorem C151_partial {fo : Nat → Nat} {s : St} (h : Reach fo s) {t r : Nat} {after : Bool} (hc : checks s t = some (after, r)) :
    .loc t r ∈ s.ptrs ∧ (s.reqs r).alive = true ∧ ∃ w, checkNref s r = .ok w ∧ (w = true ↔ Alone s t r) := by
  obtain ⟨g, i⟩ := reach_inv h
  have ⟨hl, hk, hg⟩ := checks_loc i hc
  have hal : (s.reqs r).alive = true := i.a.alive hl
  have hf : (s.reqs r).phase = .op ∧ (s.reqs r).file = some (fo r) := by
    have := i.b.pc t
    rcases checks_thr hc with ⟨_, e⟩ | ⟨_, e⟩ <;> rw [e] at this
    · exact this
    · exact this.1
  have hfa : s.falive (fo r) = true := by
    cases hx : s.falive (fo r) with
    | true => rfl
    | false => have := i.c.del _ hx r hk rfl; rw [hf.1] at this; cases this
  refine ⟨hl, hal, ?_⟩
  unfold checkNref
  rw [if_neg (by simp [hal])]
  by_cases hr : (s.reqs r).refs < 2
  · rw [if_pos hr, hf.2]
    exact ⟨true, by simp [hfa], by simpa using (refs_alone i.a hl).1 hr⟩
  · rw [if_neg hr]
    exact ⟨false, rfl, by simpa using fun x => hr ((refs_alone i.a hl).2 x)⟩

/-- **C151**: no warning while some client keeps a pointer; in particular one that waits for its requests. -/
theorem C151_client {fo : Nat → Nat} {s : St} (h : Reach fo s) {t r c : Nat} {after : Bool} (hc : checks s t = some (after, r)) (hp : .client c r ∈ s.ptrs) :
    checkNref s r = .ok false := by
  obtain ⟨_, _, w, hw, he⟩ := C151_partial h hc
  cases w with
  | false => exact hw
  | true => exact absurd (he.1 rfl _ hp rfl) (by simp)

/-- **C151**: a warning before the transfer is followed by one after it, whatever the other threads do; a warning that comes only after it
means that the last pointer of a client was given up meanwhile. -/
theorem C151_stays {fo : Nat → Nat} {s s' : St} (h : Reach fo s) {t r : Nat} {b b' : Bool} (hc : checks s t = some (b, r)) (hd : During fo t r s s')
    (hc' : checks s' t = some (b', r)) (hw : checkNref s r = .ok true) : checkNref s' r = .ok true := by
  have key : Reach fo s' ∧ Alone s' t r := by
    clear hc'
    induction hd with
    | here =>
      obtain ⟨_, _, w, h1, h2⟩ := C151_partial h hc
      rw [hw] at h1; injection h1 with h1
      exact ⟨h, h2.1 h1.symm⟩
    | @next x y op hd hl hs hy ih =>
      have hx : ∃ c, checks x t = some (c, r) := by
        cases hd with
        | here => exact ⟨_, hc⟩
        | next _ _ _ _ h => exact h
      obtain ⟨c, hx⟩ := hx
      obtain ⟨g, i⟩ := reach_inv ih.1
      exact ⟨.next op ih.1 hl hs, alone_step i hs hx ih.2⟩
  obtain ⟨_, _, w, h1, h2⟩ := C151_partial key.1 hc'
  rw [h1, h2.2 key.2]

/-- **C151**: the test of alignment is silent exactly if offset, size and address are multiples of 4096; otherwise it names exactly those that are not, once each, with their remainders. -/
theorem C151_alignment (offset bytes buffer : Nat) :
    (checkAlignment offset bytes buffer = [] ↔ 4096 ∣ offset ∧ 4096 ∣ bytes ∧ 4096 ∣ buffer) ∧
    (∀ k m, (k, m) ∈ checkAlignment offset bytes buffer ↔ m ≠ 0 ∧ m < 4096 ∧
      ∃ v q, (k, v) ∈ [(0, offset), (1, bytes), (2, buffer)] ∧ v = 4096 * q + m) ∧
    ((checkAlignment offset bytes buffer).map Prod.fst).Nodup := by
  refine ⟨?_, ?_, ?_⟩
  · unfold checkAlignment blockAlignment
    simp only [List.append_eq_nil_iff, Nat.dvd_iff_mod_eq_zero]
    by_cases h1 : offset % 4096 = 0 <;> by_cases h2 : bytes % 4096 = 0 <;> by_cases h3 : buffer % 4096 = 0 <;> simp [h1, h2, h3]
  · intro k m
    have one : ∀ j v : Nat, (k, m) ∈ (if v % 4096 ≠ 0 then [(j, v % 4096)] else []) ↔ k = j ∧ m = v % 4096 ∧ m ≠ 0 := by
      intro j v
      by_cases h : v % 4096 = 0
      · simp [h]
      · simp [h]; intro _ e; omega
    unfold checkAlignment blockAlignment
    rw [List.mem_append, List.mem_append, one, one, one]
    simp only [List.mem_cons, Prod.mk.injEq, List.not_mem_nil, or_false]
    constructor
    · rintro ((⟨a, b, c⟩ | ⟨a, b, c⟩) | ⟨a, b, c⟩)
      · exact ⟨c, by omega, offset, offset / 4096, .inl ⟨a, rfl⟩, by omega⟩
      · exact ⟨c, by omega, bytes, bytes / 4096, .inr (.inl ⟨a, rfl⟩), by omega⟩
      · exact ⟨c, by omega, buffer, buffer / 4096, .inr (.inr ⟨a, rfl⟩), by omega⟩
    · rintro ⟨c, hl, v, q, (⟨a, rfl⟩ | ⟨a, rfl⟩ | ⟨a, rfl⟩), e⟩
      · exact .inl (.inl ⟨a, by omega, c⟩)
      · exact .inl (.inr ⟨a, by omega, c⟩)
      · exact .inr ⟨a, by omega, c⟩
  · unfold checkAlignment blockAlignment
    by_cases h1 : offset % 4096 = 0 <;> by_cases h2 : bytes % 4096 = 0 <;> by_cases h3 : buffer % 4096 = 0 <;> simp [h1, h2, h3]

/-- **C151**: nothing is tested if the file does not need alignment or the test is not compiled. -/
theorem C151_construct (compiled need : Bool) (offset bytes buffer : Nat) :
    construct compiled need offset bytes buffer = [] ↔ (compiled = true → need = true → 4096 ∣ offset ∧ 4096 ∣ bytes ∧ 4096 ∣ buffer) := by
  unfold construct
  cases compiled <;> cases need <;> simp [(C151_alignment offset bytes buffer).1]

/-- A request with a second pointer; it is given up during the transfer: only the second test warns. -/
example : (match run init [.submit 0 0 0 false false, .take 1 0] with
    | .ok s => (match run s [.drop 0 0, .work 1] with
      | .ok s' => decide (checks s 1 = some (false, 0)) && (match checkNref s 0 with | .ok false => true | _ => false) &&
          decide (checks s' 1 = some (true, 0)) && (match checkNref s' 0 with | .ok true => true | _ => false)
      | _ => false)
    | _ => false) = true := by decide +kernel

example : checkAlignment 8192 4100 12289 = [(1, 4), (2, 1)] := by decide

end Foxxll.NrefCheck
