/-
Model of `buffered_writer` (/repo/foxxll/mng/buf_writer.hpp, lines 36-219) with writes that fail.

As `Model/BufWriter.lean`, but a request can end with an error, which `poll` and `wait` throw each time
they are called (request_with_state.cpp:34-44, 69-76; request.hpp:114-118), and the poll loop of
`get_free_block` is executed poll by poll.

Simplifications: the error and the states DONE and READY2DIE of a request become visible in one step;
`wait_any` registers at all requests in one step and looks for the completed one in one step; no spurious
wake-ups; submission of requests and allocations do not throw.
-/
import Verif.Model.BufWriter
import Verif.Model.Streams

namespace Foxxll.WriterFail

open BufWriter (Bid upd)

variable {α : Type}

/-- The members of the writer (buf_writer.hpp:44-69), where `w.reqs` says for failed requests too that they have
completed; `err`: the request of the buffer holds an error (request.hpp:56); `scan`: position of the loop in
`get_free_block` (buf_writer.hpp:101), or past the end of the list if the thread waits in `wait_any`; `stale`: buffers
in whose request `wait_any` left its switch (request_operations.hpp:112-138); `closing`: in the destructor or after it.
History: the buffers the client had when it called `flush`, the blocks that failed and that were
stored, the number of exceptions and of buffers handed out. -/
structure St (α : Type) where
  w : BufWriter.St α
  err : Nat → Bool
  scan : Nat
  stale : List Nat
  closing : Bool
  kept : List Nat
  failed : List (Bid × α)
  stored : List (Bid × α)
  thrown : Nat
  gets : Nat

/-- The constructor (buf_writer.hpp:76-89). -/
def init (n : Nat) (bufs : Nat → α) (bids : Nat → Bid) : St α :=
  { w := BufWriter.init n bufs bids, err := fun _ => false, scan := 0, stale := [], closing := false, kept := [],
    failed := [], stored := [], thrown := 0, gets := 0 }

/-- Calls, steps inside of them, and completions (buf_writer.hpp:98-215). -/
inductive Op (α : Type)
  | fill (b : Nat) (v : α)
  | callGet
  | callWrite (b : Nat) (bid : Bid)
  | callFlush
  | callClose
  | work (c : Nat)
  | done (b : Nat)
  | fail (b : Nat)

/-- Outcome of a step: `threw`: the exception leaves the method; `terminated`: an exception leaves the destructor
(buf_writer.hpp:194-218), which is `noexcept`; `ub`: a switch that does not exist any more is used
(request_with_waiters.cpp:47-54). -/
inductive Res (σ : Type)
  | ok (s : σ)
  | threw (s : σ)
  | terminated
  | ub
  | blocked
deriving DecidableEq, Repr

/-- The buffers of the client after an exception: `write` did not take the block if its batch loop threw
(buf_writer.hpp:139-159), `flush` did not reset the free blocks (185-190). -/
def back (s : St α) : List Nat :=
  match s.w.pc with
  | .writing b _ _ => s.w.held ++ [b]
  | .flushing => s.kept
  | .draining => s.kept
  | _ => s.w.held

/-- An exception is thrown (request.hpp:114-118); it leaves the method or the destructor (buf_writer.hpp:194). -/
def raise (s : St α) (batch : List (Nat × Nat)) : Res (St α) :=
  if s.closing then .terminated
  else .threw { s with w := { s.w with batch := batch, pc := .idle, held := back s }, scan := 0, thrown := s.thrown + 1 }

/-- A step of the writer in which no request throws (buf_writer.hpp:98-215). -/
def lift (s : St α) : Option (BufWriter.St α) → Res (St α)
  | none => .blocked
  | some w => .ok { s with w := w }

/-- `get_free_block` returns (buf_writer.hpp:125, 130). -/
def ret (s : St α) : Option (BufWriter.St α) → Res (St α)
  | none => .blocked
  | some w => .ok { s with w := w, scan := 0, gets := s.gets + 1 }

/-- `wait_any` finds request `k` completed; if it failed, the exception leaves the switch registered at `left`
(request_operations.hpp:112-138, buf_writer.hpp:120-125). -/
def found (n wbs : Nat) (s : St α) (k : Nat) (left : List Nat) : Res (St α) :=
  match s.w.busy[k]? with
  | none => .blocked
  | some x =>
    if BufWriter.isDone s.w x then
      if s.err x then raise { s with stale := s.stale ++ left } s.w.batch else ret s (BufWriter.work n wbs s.w none k)
    else .blocked

/-- One step of `get_free_block` (buf_writer.hpp:98-131): a turn of the poll loop (101-110), the free blocks (128-130), `wait_any`
(111-125), where in the loop of `add_waiter` the first completed request counts (request_operations.hpp:112-130), and
after the wait the registrations are removed up to the request that threw (135-139). -/
def get (n wbs : Nat) (s : St α) (c : Nat) : Res (St α) :=
  match s.w.busy[s.scan]? with
  | some x =>
    if BufWriter.isDone s.w x then
      if s.err x then raise s s.w.batch else ret s (BufWriter.work n wbs s.w (some s.scan) c)
    else .ok { s with scan := s.scan + 1 }
  | none =>
    if s.w.free ≠ [] then ret s (BufWriter.work n wbs s.w none c)
    else if s.scan = s.w.busy.length then
      match s.w.busy.findIdx? (BufWriter.isDone s.w) with
      | some k => found n wbs s k (s.w.busy.take k)
      | none => .ok { s with scan := s.scan + 1 }
    else found n wbs s c (s.w.busy.drop (c + 1))

/-- One turn of the batch loop (buf_writer.hpp:142-153 = 167-178 = 197-208): the entry is removed before `wait` throws. -/
def submit (n wbs : Nat) (s : St α) (c : Nat) : Res (St α) :=
  match BufWriter.popMin c s.w.batch with
  | none => .blocked
  | some (e, rest) =>
    if BufWriter.isDone s.w e.2 && s.err e.2 then raise s rest else lift s (BufWriter.work n wbs s.w none c)

/-- The loop over the busy blocks (buf_writer.hpp:179-183 = 209-213): it stops at the first request that is pending or failed. -/
def drain (n wbs : Nat) (s : St α) (c : Nat) : Res (St α) :=
  match s.w.busy.dropWhile (fun x => BufWriter.isDone s.w x && !s.err x) with
  | [] => lift s (BufWriter.work n wbs s.w none c)
  | x :: _ => if BufWriter.isDone s.w x then raise s s.w.batch else .blocked

/-- One step of the client thread inside a method (buf_writer.hpp:98-215). -/
def work (n wbs : Nat) (s : St α) (c : Nat) : Res (St α) :=
  match s.w.pc with
  | .idle => .blocked
  | .writing _ _ false => lift s (BufWriter.work n wbs s.w none c)
  | .writing _ _ true => if s.w.batch.isEmpty then lift s (BufWriter.work n wbs s.w none c) else submit n wbs s c
  | .getting => get n wbs s c
  | .flushing => if s.w.batch.isEmpty then lift s (BufWriter.work n wbs s.w none c) else submit n wbs s c
  | .draining => drain n wbs s c

/-- A call; the client makes none after the destructor (buf_writer.hpp:98, 137, 164, 194). -/
def call (s : St α) (o : Option (BufWriter.St α)) : Res (St α) := if s.closing then .blocked else lift s o

/-- One step of the system (buf_writer.hpp:98-215; completion: serving_request.cpp:51-62, request_with_state.cpp:78-90). -/
def step (n wbs : Nat) (s : St α) : Op α → Res (St α)
  | .fill b v => call s (BufWriter.step n wbs false s.w (.fill b v))
  | .callGet => call s (BufWriter.step n wbs false s.w .callGet)
  | .callWrite b bid => call s (BufWriter.step n wbs false s.w (.callWrite b bid))
  | .callFlush => call { s with kept := s.w.held } (BufWriter.step n wbs false s.w .callFlush)
  | .callClose =>
    if s.closing then .blocked
    else lift { s with kept := s.w.held, closing := true } (BufWriter.step n wbs false s.w .callFlush)
  | .work c => work n wbs s c
  | .done b =>
    match s.w.reqs b with
    | some (bid, false) =>
      if b ∈ s.stale then .ub
      else lift { s with stored := s.stored ++ [(bid, s.w.bufs b)] } (BufWriter.step n wbs false s.w (.done b))
    | _ => .blocked
  | .fail b =>
    match s.w.reqs b with
    | some (bid, false) =>
      if b ∈ s.stale then .ub
      else lift { s with failed := s.failed ++ [(bid, s.w.bufs b)], err := upd s.err b true } (BufWriter.step n wbs false s.w (.done b))
    | _ => .blocked

/-- The documented protocol (buf_writer.hpp:134): only buffers returned by the writer are filled and passed to `write`. -/
def Legal (s : St α) : Op α → Prop
  | .fill b _ => b ∈ s.w.held
  | .callWrite b _ => b ∈ s.w.held
  | _ => True

/-- The states that the system reaches from the constructor (buf_writer.hpp:76-89), also after exceptions. -/
inductive Reach (n wbs : Nat) (legal : St α → Op α → Prop) : St α → Prop
  | start (bufs : Nat → α) (bids : Nat → Bid) : Reach n wbs legal (init n bufs bids)
  | next {s s'} (op : Op α) : Reach n wbs legal s → legal s op → step n wbs s op = .ok s' → Reach n wbs legal s'
  | threw {s s'} (op : Op α) : Reach n wbs legal s → legal s op → step n wbs s op = .threw s' → Reach n wbs legal s'

/-! ### buf_ostream -/

/-- The output stream (buf_ostream.hpp:37-40) with the writer above; members and history as in `Model/Streams.lean`. -/
structure OSt (α : Type) where
  f : St (List α)
  nbid : Nat
  elem : Nat
  blk : Nat
  closed : Bool
  calls : List (Stream.Call α)
  out : List α

/-- The stream of `Model/Streams.lean` in the same state (buf_ostream.hpp:37-40). -/
def OSt.base (s : OSt α) : Stream.OSt α :=
  { w := s.f.w, nbid := s.nbid, elem := s.elem, blk := s.blk, closed := s.closed, calls := s.calls, out := s.out }

/-- The constructor (buf_ostream.hpp:50-55), up to the call of `get_free_block`. -/
def OSt.init (c : Stream.OCfg) (bufs : Nat → List α) (bids : Nat → Bid) (blk : Nat) : OSt α :=
  { f := { WriterFail.init c.n bufs bids with w := { BufWriter.init c.n bufs bids with pc := .getting } }, nbid := 0, elem := 0, blk := blk,
    closed := false, calls := [], out := [] }

/-- Calls, steps inside of them, completions (buf_ostream.hpp:65-126). -/
inductive OOp (α : Type)
  | call (k : Stream.Call α)
  | work (ch : Nat)
  | done (b : Nat)
  | fail (b : Nat)

/-- Outcome at the stream, with `ub` also for reading past the identifiers (buf_ostream.hpp:72, 99, 118) and `assertFail` for the assertion of the
destructor (125). -/
inductive ORes (σ : Type)
  | ok (s : σ)
  | threw (s : σ)
  | terminated
  | ub
  | assertFail
  | blocked

/-- Outcome of a step of the writer inside of `current_blk = writer.write(…)`: `current_blk` is assigned only if `write` returns
(buf_ostream.hpp:72, 99, 118). -/
def oLift (s : OSt α) (inside : Bool) : Res (St (List α)) → ORes (OSt α)
  | .ok f =>
    match inside, f.w.held.getLast? with
    | true, some x => .ok { s with f := f, blk := x }
    | _, _ => .ok { s with f := f }
  | .threw f => .threw { s with f := f }
  | .terminated => .terminated
  | .ub => .ub
  | .blocked => .blocked

/-- One step: calls up to the call of the writer (buf_ostream.hpp:65-126; the destructor of the stream calls that of the writer), steps of the writer
(buf_writer.hpp:98-215), completions (serving_request.cpp:51-62). -/
def oStep (c : Stream.OCfg) (s : OSt α) : OOp α → ORes (OSt α)
  | .call k =>
    match Stream.oStep c s.base (.call k) with
    | .ok o => .ok { f := { s.f with w := o.w, closing := o.closed, kept := if o.closed then s.f.w.held else s.f.kept }, nbid := o.nbid, elem := o.elem, blk := o.blk,
                     closed := o.closed, calls := o.calls, out := o.out }
    | .ub => .ub
    | .assertFail => .assertFail
    | .blocked => .blocked
  | .work ch => oLift s true (step c.n c.wbs s.f (.work ch))
  | .done b => oLift s false (step c.n c.wbs s.f (.done b))
  | .fail b => oLift s false (step c.n c.wbs s.f (.fail b))

/-- Reachable states (buf_ostream.hpp:50-126); the blocks have `size` elements. -/
inductive OReach (c : Stream.OCfg) : OSt α → Prop
  | start (bufs : Nat → List α) (bids : Nat → Bid) (blk : Nat) :
      (∀ b, (bufs b).length = c.size) → OReach c (OSt.init c bufs bids blk)
  | next {s s'} (op : OOp α) : OReach c s → oStep c s op = .ok s' → OReach c s'
  | threw {s s'} (op : OOp α) : OReach c s → oStep c s op = .threw s' → OReach c s'

end Foxxll.WriterFail
