/-
Model of the buffered streams `buf_ostream` (/repo/foxxll/mng/buf_ostream.hpp), `buf_istream`
(/repo/foxxll/mng/buf_istream.hpp) and `buf_istream_reverse`
(/repo/foxxll/mng/buf_istream_reverse.hpp), each on top of the model of the writer or the
prefetcher it uses.

A block is the list of its elements; block identifiers are those of the writer model.  The
client thread, the calls it is in and the I/O threads are interleaved in small steps.
-/
import Verif.Model.BufWriter
import Verif.Model.Prefetcher

namespace Foxxll.Stream

variable {α : Type}

/-- How a step ends; assertions: buf_ostream.hpp:125, buf_istream.hpp:103, 138. -/
inductive Res (σ : Type)
  | ok (s : σ)
  /-- the step is not possible now -/
  | blocked
  /-- undefined behaviour -/
  | ub
  | assertFail

/-! ### buf_ostream -/

/-- The calls of a client of the output stream.  `os << x` (buf_ostream.hpp:65-74) is `assign x` followed by
`advance`; `fill(x)` (buf_ostream.hpp:104-111) is a sequence of such pairs. -/
inductive Call (α : Type)
  /-- `*os = x` or `os.current() = x` (buf_ostream.hpp:78-88) -/
  | assign (x : α)
  /-- `++os` (buf_ostream.hpp:92-101) -/
  | advance
  /-- `os.flush()` (buf_ostream.hpp:115-120) -/
  | flush
  /-- the destructor (buf_ostream.hpp:123-126), followed by the destructor of the writer -/
  | close

/-- Parameters: elements per block, identifiers behind `first_bid`, number of buffers (buf_ostream.hpp:30, 50). -/
structure OCfg where
  size : Nat
  bids : List BufWriter.Bid
  nbuffers : Nat

/-- The writer is created with `nbuffers` buffers and `nbuffers / 2` as batch size (buf_ostream.hpp:50-51). -/
def OCfg.n (c : OCfg) : Nat := BufWriter.nBlocks c.nbuffers
/-- The batch size, second argument in buf_ostream.hpp:51. -/
def OCfg.wbs (c : OCfg) : Nat := BufWriter.batchSize (c.nbuffers / 2)

/-- The members (buf_ostream.hpp:37-40): writer, `current_bid` as index, `current_elem`, `current_blk`.
History: the calls made, and the values `*os` had when the stream was advanced over them. -/
structure OSt (α : Type) where
  w : BufWriter.St (List α)
  nbid : Nat
  elem : Nat
  blk : Nat
  closed : Bool
  calls : List (Call α)
  out : List α

/-- The constructor (buf_ostream.hpp:50-55), up to the call of `get_free_block`; contents of buffers and
pointers are uninitialised. -/
def OSt.init (c : OCfg) (bufs : Nat → List α) (bids : Nat → BufWriter.Bid) (blk : Nat) : OSt α :=
  { w := { BufWriter.init c.n bufs bids with pc := .getting }, nbid := 0, elem := 0, blk := blk,
    closed := false, calls := [], out := [] }

/-- A call of the client, a step inside of it (buf_writer.hpp:67-215), or the completion of a request. -/
inductive OOp (α : Type)
  | call (k : Call α)
  /-- next step inside of a method of the writer; if it returns a buffer, `current_blk` is
  set to it -/
  | work (polled : Option Nat) (ch : Nat)
  /-- an I/O request completes -/
  | done (b : Nat)

/-- `current_elem = 0; current_blk = writer.write(current_blk, *(current_bid++))`
(buf_ostream.hpp:71-72, 98-99, 117-118), up to the call of `write`. -/
def passBlock (c : OCfg) (s : OSt α) : Res (OSt α) :=
  match c.bids[s.nbid]? with
  | none => .ub
  | some bid =>
    match BufWriter.step c.n c.wbs false s.w (.callWrite s.blk bid) with
    | none => .blocked
    | some w => .ok { s with w := w, nbid := s.nbid + 1, elem := 0 }

/-- One step: `operator *`, `current` (buf_ostream.hpp:78-88), `operator ++` (92-101), `flush` (115-120), the destructor (123-126), or a step of the writer (buf_writer.hpp:67-215). -/
def oStep (c : OCfg) (s : OSt α) : OOp α → Res (OSt α)
  | .call k =>
    if s.w.pc = .idle ∧ s.closed = false then
      let s := { s with calls := s.calls ++ [k] }
      match k with
      | .assign x =>
        if s.elem < (s.w.bufs s.blk).length then
          match BufWriter.step c.n c.wbs false s.w (.fill s.blk ((s.w.bufs s.blk).set s.elem x)) with
          | none => .blocked
          | some w => .ok { s with w := w }
        else .ub
      | .advance =>
        let s := { s with out := s.out ++ ((s.w.bufs s.blk)[s.elem]?).toList }
        if s.elem + 1 ≥ c.size then passBlock c s else .ok { s with elem := s.elem + 1 }
      | .flush => passBlock c { s with out := s.out ++ (s.w.bufs s.blk).drop s.elem }
      | .close =>
        if s.elem = 0 then
          match BufWriter.step c.n c.wbs false s.w .callFlush with
          | none => .blocked
          | some w => .ok { s with w := w, closed := true }
        else .assertFail
    else .blocked
  | .work p ch =>
    match BufWriter.step c.n c.wbs false s.w (.work p ch) with
    | none => .blocked
    | some w =>
      match w.held.getLast? with
      | some x => .ok { s with w := w, blk := x }
      | none => .ok { s with w := w }
  | .done b =>
    match BufWriter.step c.n c.wbs false s.w (.done b) with
    | none => .blocked
    | some w => .ok { s with w := w }

/-- Reachable states; the blocks have `size` elements (typed_block.hpp:73-101). -/
inductive OReach (c : OCfg) : OSt α → Prop
  | start (bufs : Nat → List α) (bids : Nat → BufWriter.Bid) (blk : Nat) :
      (∀ b, (bufs b).length = c.size) → OReach c (OSt.init c bufs bids blk)
  | next {s s'} (op : OOp α) : OReach c s → oStep c s op = .ok s' → OReach c s'

/-- Content of the disk after the given writes, in their order (no code of its own). -/
def diskAfter (d : BufWriter.Bid → List α) (ws : List (BufWriter.Bid × List α)) : BufWriter.Bid → List α :=
  ws.foldl (fun d w b => if b = w.1 then w.2 else d b) d

/-! ### buf_istream and buf_istream_reverse -/

/-- Number of prefetch buffers: `std::max(2 * ndisks, nbuffers - 1)` (buf_istream.hpp:80,
buf_istream_reverse.hpp:88), with `size_t` arithmetic. -/
def readBuffers (ndisks nbuffers : Nat) : Nat :=
  max (2 * ndisks) (if nbuffers = 0 then 2 ^ 64 - 1 else nbuffers - 1)

/-- The consumption order of the reverse stream (buf_istream_reverse.hpp:79). -/
def order {β : Type} (rev : Bool) (l : List β) : List β := if rev then l.reverse else l

/-- Where the client thread is (block_prefetcher.hpp:177 and 93). -/
inductive IPc
  | idle
  /-- in `block_consumed`, waiting for the request of the buffer -/
  | consuming
  /-- in `wait` -/
  | waiting
deriving DecidableEq, Repr

/-- The members (buf_istream.hpp:48-54, buf_istream_reverse.hpp:54-61).  History: `got`, the values `*is` had when the stream
was advanced. -/
structure ISt (α : Type) where
  p : Prefetch.St (List α)
  elem : Nat
  blk : Nat
  notFinished : Bool
  pc : IPc
  got : List α

/-- First position in a block: buf_istream.hpp:65, buf_istream_reverse.hpp:99. -/
def firstElem (rev : Bool) (size : Nat) : Nat := if rev then size - 1 else 0

/-- Next position, `none` at the end of the block: buf_istream.hpp:141-145 (106-110),
buf_istream_reverse.hpp:156-168 (119-131). -/
def nextElem (rev : Bool) (size e : Nat) : Option Nat :=
  if rev then (if e = 0 then none else some (e - 1))
  else (if e + 1 ≥ size then none else some (e + 1))

/-- The constructor (buf_istream.hpp:64-89, buf_istream_reverse.hpp:71-100), up to the wait in
`pull_block`. -/
def iInit (rev : Bool) (size : Nat) (c : Prefetch.Cfg (List α)) (blk : Nat) : Res (ISt α) :=
  match Prefetch.init c with
  | .ok p =>
    match Prefetch.step c p .pull with
    | .ok p => .ok { p := p, elem := firstElem rev size, blk := blk, notFinished := true, pc := .waiting, got := [] }
    | .ub => .ub
    | .assertFail => .assertFail
    | .blocked => .blocked
  | .ub => .ub
  | .assertFail => .assertFail
  | .blocked => .blocked

/-- A call of the client (buf_istream.hpp:100-153), a step inside of it, or of the I/O threads (block_prefetcher.hpp:41-48). -/
inductive IOp
  /-- `++is`; `is >> x` is `x = *is` followed by this -/
  | advance
  /-- the call of `block_consumed` gets past the wait for the request -/
  | consume
  /-- the wait for the next block returns; `spurious` without notification -/
  | wake | spurious
  /-- the I/O threads: `copy`, `signal`, `finish` of the prefetcher model -/
  | copy (b : Nat) | signal (b : Nat) | finish (b : Nat)

/-- Outcomes of the prefetcher as outcomes of the stream (buf_istream.hpp:112, 147; no code of its own). -/
def lift (f : Prefetch.St (List α) → ISt α) : Prefetch.Res (Prefetch.St (List α)) → Res (ISt α)
  | .ok p => .ok (f p)
  | .ub => .ub
  | .assertFail => .assertFail
  | .blocked => .blocked

/-- `current_blk = &read_buffers[…]`: the buffer returned last (block_prefetcher.hpp:99, 202; buf_istream.hpp:88). -/
def lastBuf (p : Prefetch.St (List α)) (blk : Nat) : Nat :=
  match p.returned.getLast? with
  | some (_, b) => b
  | none => blk

/-- One step: `operator ++` (buf_istream.hpp:135-153, buf_istream_reverse.hpp:150-171), `block_consumed` (block_prefetcher.hpp:172-205), `wait` (87-100), or the I/O threads. -/
def iStep (rev : Bool) (size : Nat) (c : Prefetch.Cfg (List α)) (s : ISt α) : IOp → Res (ISt α)
  | .advance =>
    if s.pc = .idle then
      if s.notFinished then
        match s.p.bufs s.blk with
        | none => .ub
        | some blk =>
          match blk[s.elem]? with
          | none => .ub
          | some x =>
            match nextElem rev size s.elem with
            | some e => .ok { s with elem := e, got := s.got ++ [x] }
            | none => .ok { s with elem := firstElem rev size, got := s.got ++ [x], pc := .consuming }
      else .assertFail
    else .blocked
  | .consume =>
    if s.pc = .consuming then
      lift (fun p =>
        if p.waiting.isSome then { s with p := p, pc := .waiting }
        else { s with p := p, pc := .idle, notFinished := false }) (Prefetch.step c s.p (.consumed s.blk))
    else .blocked
  | .wake =>
    if s.pc = .waiting then
      lift (fun p => { s with p := p, pc := .idle, notFinished := true, blk := lastBuf p s.blk }) (Prefetch.step c s.p .wake)
    else .blocked
  | .spurious =>
    if s.pc = .waiting then
      lift (fun p => { s with p := p, pc := .idle, notFinished := true, blk := lastBuf p s.blk }) (Prefetch.step c s.p .spurious)
    else .blocked
  | .copy b => lift (fun p => { s with p := p }) (Prefetch.step c s.p (.copy b))
  | .signal b => lift (fun p => { s with p := p }) (Prefetch.step c s.p (.signal b))
  | .finish b => lift (fun p => { s with p := p }) (Prefetch.step c s.p (.finish b))

/-- Reachable states; `sp`: spurious wake-ups may occur (no code of its own). -/
inductive IReach (rev : Bool) (size : Nat) (c : Prefetch.Cfg (List α)) (sp : Bool) : ISt α → Prop
  | start {s} (blk : Nat) : iInit rev size c blk = .ok s → IReach rev size c sp s
  | next {s s'} (op : IOp) : IReach rev size c sp s → (op = .spurious → sp = true) →
      iStep rev size c s op = .ok s' → IReach rev size c sp s'

end Foxxll.Stream
