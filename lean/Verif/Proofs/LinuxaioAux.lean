import Verif.Proofs.Linuxaio
import Verif.Spec.Linuxaio
/-
Auxiliary lemmas for the theorems of `Verif.Props.Linuxaio`.
-/
set_option linter.unusedSimpArgs false
set_option linter.unusedVariables false
namespace Foxxll.Aio

instance (s : St) : Decidable (AtRest s) := by unfold AtRest; infer_instance

/-- A sequence of steps, each passing the test `b`. -/
def runOps (b : St → Op → Bool) (s : St) : List Op → Res St
  | [] => .ok s
  | op :: l => if b s op then
      match step s op with
      | .ok s' => runOps b s' l
      | r => r
    else .die

def endSt (b : St → Op → Bool) (s : St) (l : List Op) : St :=
  match runOps b s l with
  | .ok s' => s'
  | _ => s

def isOk {σ : Type} : Res σ → Bool
  | .ok _ => true
  | _ => false

theorem reach_run {P : St → Op → Prop} {b : St → Op → Bool} (hb : ∀ s op, b s op = true → P s op) : ∀ (l : List Op) (s : St), Reach P s →
    isOk (runOps b s l) = true → Reach P (endSt b s l)
  | [], s, h, _ => h
  | op :: l, s, h, ho => by
    simp only [runOps, endSt] at *
    by_cases hp : b s op = true
    case neg => rw [if_neg hp] at ho; simp [isOk] at ho
    rw [if_pos hp] at ho ⊢
    cases hs : step s op with
    | ok s' =>
      rw [hs] at ho
      simp only at ho ⊢
      have := reach_run hb l s' (.next op h (hb _ _ hp) hs) ho
      revert this ho
      simp only [endSt]
      cases runOps b s' l <;> simp [isOk]
    | blocked => rw [hs] at ho; simp [isOk] at ho
    | ub => rw [hs] at ho; simp [isOk] at ho
    | terminate => rw [hs] at ho; simp [isOk] at ho
    | die => rw [hs] at ho; simp [isOk] at ho

def noConfirmB (_ : St) : Op → Bool
  | .cancelK _ true => false
  | _ => true
def isCheckP : PPc → Bool
  | .check _ => true
  | _ => false
def isCheckW : WPc → Bool
  | .check _ => true
  | _ => false
def calmB (s : St) : Op → Bool
  | .stop => (s.dtor != .idle || (s.nsig == 0 && s.canc == [] && s.ncw == 0 && !isCheckP s.post)) && (s.dtor != .sigP || !isCheckW s.wt)
  | .post _ => s.dtor != .setP || s.post != .wait
  | .wait _ => s.dtor != .setW || s.wt != .wait
  | _ => true
def fullB (s : St) : Op → Bool
  | .post o => match s.post with
    | .submit cbs => o.k == cbs.length
    | _ => true
  | _ => true
def benignB (s : St) (op : Op) : Bool := noConfirmB s op && calmB s op && fullB s op

theorem noConfirmB_ok (s : St) (op : Op) (h : noConfirmB s op = true) : NoConfirm s op := by
  intro r e; subst e; simp [noConfirmB] at h

theorem calmB_ok (s : St) (op : Op) (h : calmB s op = true) : Calm s op := by
  cases op with
  | stop =>
    simp only [calmB, Bool.and_eq_true, Bool.or_eq_true] at h
    obtain ⟨h1, h2⟩ := h
    constructor
    · intro e
      rcases h1 with h1 | ⟨⟨⟨a, b⟩, c⟩, d⟩
      · simp [e] at h1
      · refine ⟨by simpa using a, by simpa using b, by simpa using c, ?_⟩
        intro n e2; simp [e2, isCheckP] at d
    · intro e
      rcases h2 with h2 | d
      · simp [e] at h2
      · intro n e2; simp [e2, isCheckW] at d
  | post o => simp only [calmB, Bool.or_eq_true] at h; intro e; simpa [e] using h
  | wait o => simp only [calmB, Bool.or_eq_true] at h; intro e; simpa [e] using h
  | _ => trivial

theorem fullB_ok (s : St) (op : Op) (h : fullB s op = true) : Full s op := by
  cases op with
  | post o => intro cbs e; simpa [fullB, e] using h
  | _ => trivial

theorem benignB_ok (s : St) (op : Op) (h : benignB s op = true) : Benign s op := by
  simp only [benignB, Bool.and_eq_true] at h
  exact ⟨noConfirmB_ok _ _ h.1.1, calmB_ok _ _ h.1.2, fullB_ok _ _ h.2⟩

theorem quiet_of_idle {s : St} (h : Reach NoConfirm s) : s.dtor = .idle → Reach Quiet s := by
  induction h with
  | start m hm => intro _; exact .start m hm
  | @next s s' op hr hp hs ih =>
    intro hd
    have hi := reach_inv (fun _ _ h => h) hr
    have : s.dtor = .idle ∧ op ≠ .stop := by
      refine ⟨idle_back hi hs hd, ?_⟩
      rintro rfl
      have h0 := idle_back hi hs hd
      simp only [step, stopStep, h0] at hs
      injection hs with hs; subst hs; simp at hd
    refine .next op (ih this.1) ⟨hp, ?_⟩ hs
    cases op with
    | stop => exact absurd rfl this.2
    | post o => intro e; rw [this.1] at e; cases e
    | wait o => intro e; rw [this.1] at e; cases e
    | _ => trivial

theorem negotiate_events {setup : Int → Setup} {d : Int} (hmono : ∀ a b, 0 < a → a ≤ b → setup b = .ok → setup a = .ok)
    (hneg : ∀ m, m ≤ 0 → setup m ≠ .ok) : ∀ (f : Nat) (m n : Int), 0 < d → setup d ≠ .ok → (d ≤ m ∨ m ≤ 0) → negotiate setup f m ≠ .events n := by
  intro f
  induction f with
  | zero => intro m n _ _ _ h; cases h
  | succ f ih =>
    intro m n hd hno hm h
    simp only [negotiate] at h
    have hmo : setup m ≠ .ok := by
      rcases hm with hm | hm
      · exact fun e => hno (hmono d m hd hm e)
      · exact hneg m hm
    split at h
    · contradiction
    · cases h
    · split at h
      · split at h
        · rename_i m' hm'
          refine ih m' n hd hno ?_ h
          unfold shl1 at hm'
          split at hm'
          · injection hm' with hm'; left; omega
          split at hm'
          · injection hm' with hm'; right; omega
          · cases hm'
        · cases h
      · cases h

theorem negotiate_range {setup setup' : Int → Setup} (h : ∀ m, -2 ^ 31 ≤ m → m < 2 ^ 31 → setup m = setup' m) : ∀ (f : Nat) (m : Int),
    -2 ^ 31 ≤ m → m < 2 ^ 31 → negotiate setup f m = negotiate setup' f m := by
  intro f
  induction f with
  | zero => intro m _ _; rfl
  | succ f ih =>
    intro m h1 h2
    simp only [negotiate]
    rw [h m h1 h2]
    cases setup' m with
    | ok => rfl
    | err => rfl
    | again =>
      by_cases hm : m > 1
      · simp only [hm, if_true]
        cases hs : shl1 m with
        | none => rfl
        | some m' =>
          simp only
          unfold shl1 at hs
          split at hs
          · injection hs with hs; exact ih m' (by omega) (by omega)
          · split at hs
            · injection hs with hs; exact ih m' (by omega) (by omega)
            · cases hs
      · simp only [hm, if_false]

theorem fuel_enough {setup : Int → Setup} : ∀ (f : Nat) (m : Int), (m ≤ 1 ∨ 2 ^ 32 ≤ m * 2 ^ f) → negotiate setup (f + 1) m ≠ .fuel := by
  intro f
  induction f with
  | zero =>
    intro m hm h
    simp only [negotiate] at h
    split at h
    · cases h
    · cases h
    · split at h
      · rename_i hgt
        have : shl1 m = none := by unfold shl1; rw [if_neg (by omega), if_neg (by omega)]
        rw [this] at h; cases h
      · cases h
  | succ f ih =>
    intro m hm h
    rw [negotiate] at h
    split at h
    · cases h
    · cases h
    · split at h
      · rename_i hgt
        split at h
        · rename_i m' hm'
          refine ih m' ?_ h
          unfold shl1 at hm'
          split at hm'
          · injection hm' with hm'
            right
            rcases hm with hm | hm
            · omega
            · rw [← hm']
              have : (m * 2 ^ (f + 1) : Int) = 2 * m * 2 ^ f := by
                rw [Int.pow_succ, Int.mul_comm (2 ^ f) 2, ← Int.mul_assoc, Int.mul_comm m 2]
              omega
          split at hm'
          · injection hm' with hm'; left; omega
          · cases hm'
        · cases h
      · cases h

/-- The constructor comes to an end: the model never runs out of fuel. -/
theorem negotiate_fuel (setup : Int → Setup) (desired : Int) : construct setup desired ≠ .fuel := by
  unfold construct
  refine fuel_enough 39 _ ?_
  by_cases h : (if desired = 0 then 64 else desired) ≤ (1 : Int)
  · exact .inl h
  · right
    have : (2 : Int) ^ 39 ≤ (if desired = 0 then 64 else desired) * 2 ^ 39 := by omega
    omega

/-- Both threads wait for each other. -/
structure Dead (s : St) : Prop where
  post : s.post = .hPost 1 [1]
  wt : s.wt = .reap
  np : s.np = 0
  infl : s.infl = []
  kcan : s.kcan = []
  dtor : s.dtor = .idle ∨ s.dtor = .setP ∨ s.dtor = .sigP
  comp : 1 ∉ s.comp.map (·.1)
  canc : 1 ∉ s.canc
  wait : 1 ∉ s.waiting
  subm : 1 ∈ s.subm

theorem dead_step {s s' : St} {op : Op} (h : Dead s) (hs : step s op = .ok s') : Dead s' := by
  obtain ⟨h1, h2, h3, h4, h5, h6, h7, h8, h9, h10⟩ := h
  cases op with
  | add r =>
    simp only [step] at hs
    split at hs
    · cases hs
    split at hs
    · cases hs
    · rename_i hc
      injection hs with hs; subst hs
      simp only [Bool.or_eq_true, not_or, decide_eq_true_eq] at hc
      exact ⟨h1, h2, h3, h4, h5, h6, h7, h8, by
        simp only [List.mem_append, List.mem_singleton, not_or]
        exact ⟨h9, fun e => hc.2 (e ▸ h10)⟩, by simp [h10]⟩
  | addSig =>
    simp only [step] at hs
    split at hs
    · cases hs
    injection hs with hs; subst hs; exact ⟨h1, h2, h3, h4, h5, h6, h7, h8, h9, h10⟩
  | cancelW r =>
    simp only [step] at hs
    split at hs
    · cases hs
    split at hs
    · cases hs
    · rename_i hc
      injection hs with hs; subst hs
      simp only [Bool.or_eq_true, not_or, Bool.not_eq_true, Bool.not_eq_false', decide_eq_true_eq] at hc
      exact ⟨h1, h2, h3, h4, h5, h6, h7, by
        simp only [List.mem_append, List.mem_singleton, not_or]
        exact ⟨h8, fun e => h9 (by rw [e]; simpa using hc.2)⟩, fun e => h9 (List.mem_of_mem_erase e), h10⟩
  | cancelComp r =>
    simp only [step] at hs
    split at hs
    · rename_i hm
      split at hs
      · rename_i s1 hco
        obtain ⟨_, rfl⟩ := complete_ok hco
        injection hs with hs; subst hs
        exact ⟨h1, h2, h3, h4, h5, h6, by
          simp only [List.map_append, List.mem_append, not_or]
          refine ⟨h7, ?_⟩
          simp only [List.map_cons, List.map_nil, List.mem_singleton]
          exact fun e => h8 (by rw [e]; exact hm), fun e => h8 (List.mem_of_mem_erase e), h9, h10⟩
      · rename_i hne
        exact absurd hs (hne _)
    · cases hs
  | cancelDone =>
    simp only [step] at hs
    split at hs
    · cases hs
    injection hs with hs; subst hs; exact ⟨h1, h2, h3, h4, h5, h6, h7, h8, h9, h10⟩
  | cancelK r ok =>
    simp only [step] at hs
    split at hs
    · cases hs
    split at hs
    · cases hs
    split at hs
    · rw [h4] at hs; simp at hs
    · injection hs with hs; subst hs; exact ⟨h1, h2, h3, h4, h5, h6, h7, h8, h9, h10⟩
  | kstep i => simp [step, kStep, h5] at hs
  | post o => simp [step, postStep, h1, h3] at hs
  | wait o =>
    simp only [step, waitStep, h2] at hs
    split at hs
    · cases hs
    split at hs
    · rename_i hc
      simp only [Bool.and_eq_true] at hc
      have := reapable_len hc.1
      rw [h4] at this
      have he : o.evs = [] := by
        cases e : o.evs with
        | nil => rfl
        | cons a b => rw [e] at this; simp at this
      simp [he] at hc
    · cases hs
  | stop =>
    simp only [step, stopStep] at hs
    split at hs
    · injection hs with hs; subst hs; exact ⟨h1, h2, h3, h4, h5, by simp, h7, h8, h9, h10⟩
    · injection hs with hs; subst hs; exact ⟨h1, h2, h3, h4, h5, by simp, h7, h8, h9, h10⟩
    · simp [h1] at hs
    all_goals (rename_i hd; rw [hd] at h6; simp at h6)

end Foxxll.Aio
