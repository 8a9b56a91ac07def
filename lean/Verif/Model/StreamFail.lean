import Verif.Model.Streams
/-
Model of `buf_istream` and `buf_istream_reverse` (/repo/foxxll/mng/buf_istream.hpp, buf_istream_reverse.hpp) on top of `block_prefetcher`
(/repo/foxxll/mng/block_prefetcher.hpp) when read requests fail.

`serving_request::serve` catches the exception, stores it in the request and completes the request (serving_request.cpp:51-62); `completed` calls the completion handler
(request_with_state.cpp:78-90), which turns the switch on without looking at its argument (block_prefetcher.hpp:41-48).  `wait` of the request throws the stored
exception whenever it is called (request_with_state.cpp:33-44, request.hpp:114-118).

Simplifications: those of `Model/Prefetcher.lean` and `Model/Streams.lean`; submitting a request does not throw.
-/
namespace Foxxll.StreamFail
open Foxxll.Stream (ISt IOp iInit iStep firstElem)

variable {α : Type}

/-- The arguments (block_prefetcher.hpp:110-115), the blocks whose read fails, and what the failed read leaves in the buffer. -/
structure Cfg (α : Type) where
  seqLength : Nat
  seq : List Nat
  bufSize : Nat
  disk : Nat → List α
  fails : Nat → Bool := fun _ => false
  junk : Nat → List α := fun _ => []

/-- What is in the buffer of a block when its request is finished, whether it failed or not (serving_request.cpp:51-62). -/
def Cfg.eff (c : Cfg α) : Prefetch.Cfg (List α) :=
  { seqLength := c.seqLength, seq := c.seq, bufSize := c.bufSize, disk := fun k => if c.fails k then c.junk k else c.disk k }

/-- How a step ends: as in `Model/Streams.lean`, or with an exception for the client. -/
inductive Res (σ : Type)
  | ok (s : σ)
  | threw (s : σ)
  | blocked
  | ub
  | assertFail

/-- A step without an exception (buf_istream.hpp:135-153, block_prefetcher.hpp:172-205). -/
def lift : Stream.Res (ISt α) → Res (ISt α)
  | .ok s => .ok s
  | .blocked => .blocked
  | .ub => .ub
  | .assertFail => .assertFail

/-- The request of buffer `b` failed (request.hpp:114-118). -/
def bad (c : Cfg α) (s : ISt α) (b : Nat) : Bool :=
  match s.p.reqs b with
  | some (n, _) => c.fails n
  | none => false

/-- The request of buffer `b` is finished, so that `wait` returns or throws (request_with_state.cpp:41-43). -/
def done (s : ISt α) (b : Nat) : Bool :=
  match s.p.reqs b with
  | some (_, .ready) => true
  | _ => false

/-- One step (buf_istream.hpp:135-153, buf_istream_reverse.hpp:150-171, block_prefetcher.hpp:172-205).  `block_consumed` first waits for the request of the buffer given back
(177-178): if it throws, neither the prefetcher nor `current_blk` has changed, but `current_elem` has (buf_istream.hpp:145, buf_istream_reverse.hpp:158). -/
def step (rev : Bool) (size : Nat) (c : Cfg α) (s : ISt α) (op : IOp) : Res (ISt α) :=
  if op matches .consume then
    if s.pc = .consuming ∧ bad c s s.blk then
      if done s s.blk then .threw { s with pc := .idle } else .blocked
    else lift (iStep rev size c.eff s op)
  else lift (iStep rev size c.eff s op)

/-- How a destructor ends. -/
inductive End
  | ok
  | terminated
  deriving DecidableEq

/-- The destructors (buf_istream.hpp:156-160, buf_istream_reverse.hpp:174-178, block_prefetcher.hpp:221-231): `wait` for the requests of all buffers; an exception leaves a
destructor, which is `std::terminate`. -/
def destroy (c : Cfg α) (s : ISt α) : End := if (List.range c.eff.nread).any (bad c s) then .terminated else .ok

/-- Reachable states with the number of exceptions that the client got (no code of its own); spurious wake-ups are left out (C15). -/
inductive Reach (rev : Bool) (size : Nat) (c : Cfg α) : ISt α → Nat → Prop
  | start {s} (blk : Nat) : iInit rev size c.eff blk = .ok s → Reach rev size c s 0
  | next {s s' m} (op : IOp) : Reach rev size c s m → op ≠ .spurious → step rev size c s op = .ok s' → Reach rev size c s' m
  | threw {s s' m} (op : IOp) : Reach rev size c s m → op ≠ .spurious → step rev size c s op = .threw s' → Reach rev size c s' (m + 1)

end Foxxll.StreamFail
