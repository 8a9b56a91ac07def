import Verif.Model.SwapWorld
import Verif.Spec.SwapStore
/-
Rules for threads that use block schedulers over the same disks.
-/
namespace Foxxll.SwapStore
open Foxxll

/-- The internal blocks of two schedulers are different buffers. -/
def Apart (a b : Nat × Cfg) : Prop :=
  ∀ p q, p < a.2.count a.1 → q < b.2.count b.1 → a.2.base + p ≠ b.2.base + q

/-- The rules.  New internal blocks are buffers that nobody uses.  The thread of a scheduler keeps the rules of `Fair`; a block of a scheduler is not given to
another one.  Other clients leave alone blocks and buffers of all schedulers. -/
def World.Fair (k : Queue.Kind) (qid : Nat → Nat) (G : Nat → Nat × Cfg) (w : World) (h : Store.Hist) (a : Nat → Swap.Abs (List UInt8)) : Act → Prop
  | .create i => E2E.Unused qid (G i).2.base ((G i).2.base + (G i).2.count (G i).1) w.d ∧
      (∀ p, p < (G i).2.count (G i).1 → (w.d.mem ((G i).2.base + p)).length = (G i).2.raw) ∧ ∀ j, w.cl j ≠ none → Apart (G i) (G j)
  | .go i ev => (∀ s, w.cl i = some s → SwapStore.Fair k qid (G i).1 (G i).2 { s with d := w.d } h (a i) ev) ∧ (∀ op, ev ≠ .env op) ∧
      ∀ b v, ev = .adopt b v → ∀ j s, w.cl j = some s → ∀ e ∈ s.own, s.bid e ≠ b
  | .env op => Store.Allowed k qid w.d op ∧ Store.Orderly k op ∧
      ∀ i s, w.cl i = some s → E2E.Foreign (s.own.map s.bid) (G i).2.base ((G i).2.base + (G i).2.count (G i).1) w.d op

/-- The operation of the store in a step. -/
def World.store (G : Nat → Nat × Cfg) (w : World) : Act → Option Store.Op
  | .create _ => none
  | .go i ev => (w.cl i).bind fun s => Sys.store (G i).2 { s with d := w.d } ev
  | .env op => some op

/-- What the clients know after a step. -/
def World.known (G : Nat → Nat × Cfg) (w : World) (a : Nat → Swap.Abs (List UInt8)) : Act → Nat → Swap.Abs (List UInt8)
  | .create i => Store.upd a i {}
  | .go i ev =>
    match w.cl i with
    | some s => Store.upd a i (SwapStore.known (G i).2 { s with d := w.d } (a i) ev)
    | none => a
  | .env _ => a

/-- Runs of threads with schedulers. -/
inductive World.Run (k : Queue.Kind) (qid : Nat → Nat) (cfgs : List (Nat × Bool)) (G : Nat → Nat × Cfg) :
    World → Store.Hist → (Nat → Swap.Abs (List UInt8)) → Prop
  | start {d : Store.St} {h : Store.Hist} {a : Nat → Swap.Abs (List UInt8)} : Store.Life k qid cfgs (Store.Orderly k) d h →
      World.Run k qid cfgs G (World.init d) h a
  | next {w w' : World} {h : Store.Hist} {a : Nat → Swap.Abs (List UInt8)} (act : Act) : World.Run k qid cfgs G w h a → w.Fair k qid G h a act →
      w.step k qid G act = some w' → World.Run k qid cfgs G w' (E2E.after w.d h (w.store G act)) (w.known G a act)

/-- Steps of the thread of scheduler `i` inside of a call, and of threads inside of the queues. -/
def Act.Inner (i : Nat) (os : Nat → Files.Sys) : Act → Prop
  | .go j (.cmd _ _ _) => j = i
  | .env (.run _ _ os') => os' = os
  | _ => False

/-- Runs of such steps, while the clients know `a`. -/
inductive World.Leads (k : Queue.Kind) (qid : Nat → Nat) (G : Nat → Nat × Cfg) (a : Nat → Swap.Abs (List UInt8)) (i : Nat) (os : Nat → Files.Sys) :
    World → Store.Hist → World → Store.Hist → Prop
  | refl (w : World) (h : Store.Hist) : World.Leads k qid G a i os w h w h
  | next {w w' v : World} {h h' : Store.Hist} (act : Act) : act.Inner i os → w.Fair k qid G h a act → w.step k qid G act = some w' →
      World.Leads k qid G a i os w' (E2E.after w.d h (w.store G act)) v h' → World.Leads k qid G a i os w h v h'

end Foxxll.SwapStore
