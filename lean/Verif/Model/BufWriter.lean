/-
Model of `buffered_writer` (/repo/foxxll/mng/buf_writer.hpp, lines 36-219).

One client thread calls the methods; the I/O threads complete the write requests in any order.
A method is executed in small steps, so that requests can complete between them.  A write
request transfers the content that its buffer has when the transfer happens.

Left out: the priority hint to the disk queues (88) and the statistics.  `wait_any` (120) is
modelled as: returns the index of some completed request of a non-empty list, blocks otherwise
(request_operations.hpp:103-143).
-/
namespace Foxxll.BufWriter

/-- Block identifier: file and offset (bid.hpp:48-50). -/
structure Bid where
  file : Nat
  offset : Nat
deriving DecidableEq, Repr

/-- Where the client thread is. -/
inductive Pc
  | idle
  /-- in `write`, in front of or in the batch loop (buf_writer.hpp:139-154) -/
  | writing (b : Nat) (bid : Bid) (flushing : Bool)
  /-- in `get_free_block` (buf_writer.hpp:98-131) -/
  | getting
  /-- in the batch loop of `flush` or of the destructor (buf_writer.hpp:167-178, 197-208) -/
  | flushing
  /-- waiting for the busy blocks (buf_writer.hpp:179-183, 209-213) -/
  | draining
deriving DecidableEq, Repr

/-- The members (buf_writer.hpp:44-69).  A request is `none` (null pointer) or the identifier it writes to and
whether it has completed.  History: `written` are the (identifier, content) pairs passed to
`write`, `transferred` those that reached the disk, `held` the buffers the client got and did
not pass to `write`. -/
structure St (α : Type) where
  bufs : Nat → α
  bids : Nat → Bid
  reqs : Nat → Option (Bid × Bool)
  free : List Nat
  busy : List Nat
  batch : List (Nat × Nat)
  pc : Pc
  written : List (Bid × α)
  transferred : List (Bid × α)
  held : List Nat

variable {α : Type}

/-- Assignment to an element of `write_reqs` or `write_bids` (buf_writer.hpp:46-47). -/
def upd {β : Type} (f : Nat → β) (k : Nat) (v : β) : Nat → β := fun j => if j = k then v else f j

/-- `nwriteblocks` (buf_writer.hpp:77). -/
def nBlocks (writeBufSize : Nat) : Nat := if writeBufSize > 2 then writeBufSize else 2

/-- `writebatchsize` (buf_writer.hpp:78). -/
def batchSize (writeBatchSize : Nat) : Nat := if writeBatchSize = 0 then 1 else writeBatchSize

/-- The constructor (buf_writer.hpp:76-89); the contents of the buffers and identifiers are arbitrary. -/
def init (n : Nat) (bufs : Nat → α) (bids : Nat → Bid) : St α :=
  { bufs := bufs, bids := bids, reqs := fun _ => none, free := List.range n, busy := [], batch := [],
    pc := .idle, written := [], transferred := [], held := [] }

/-- Steps of the system: calls of the methods (buf_writer.hpp:98-191), steps inside them, completion of requests. -/
inductive Op (α : Type)
  /-- the client changes the content of a buffer -/
  | fill (b : Nat) (v : α)
  /-- `get_free_block()` is called -/
  | callGet
  /-- `write(b, bid)` is called -/
  | callWrite (b : Nat) (bid : Bid)
  /-- `flush()` is called -/
  | callFlush
  /-- the client thread executes its next step; the arguments resolve the nondeterminism:
  the busy block found completed by `poll` (if any), and a choice among equal offsets or
  among the completed requests -/
  | work (polled : Option Nat) (c : Nat)
  /-- the write request of buffer `b` completes -/
  | done (b : Nat)

/-- `batch_write_blocks.top(); pop()`: an entry with least offset (buf_writer.hpp:144-145 with 60-68). -/
def popMin (c : Nat) (batch : List (Nat × Nat)) : Option ((Nat × Nat) × List (Nat × Nat)) :=
  let cand := batch.filter (fun e => batch.all (fun e' => decide (e.1 ≤ e'.1)))
  match cand[c % cand.length]? with
  | none => none
  | some e => some (e, batch.erase e)

/-- `write_reqs[b]->poll()` (buf_writer.hpp:103). -/
def isDone (s : St α) (b : Nat) : Bool :=
  match s.reqs b with
  | some (_, d) => d
  | none => false

/-- One turn of the batch loop (buf_writer.hpp:142-153 = 167-178 = 197-208); `none`: the thread waits for the
previous request of the buffer. -/
def submitOne (s : St α) (c : Nat) : Option (St α) :=
  match popMin c s.batch with
  | none => none
  | some (e, rest) =>
    match s.reqs e.2 with
    | some (_, false) => none
    | _ => some { s with batch := rest, reqs := upd s.reqs e.2 (some (s.bids e.2, false)), busy := s.busy ++ [e.2] }

/-- Hand buffer `x` to the client (buf_writer.hpp:125, 130). -/
def handOut (s : St α) (x : Nat) : St α := { s with held := s.held ++ [x], pc := .idle }

/-- The poll loop of `get_free_block` (buf_writer.hpp:101-110): block number `i` of the busy list is found
completed, or none is found. -/
def pollStage (s : St α) : Option Nat → Option (St α)
  | none => some s
  | some i =>
    match s.busy[i]? with
    | none => none
    | some x => if isDone s x then some { s with busy := s.busy.eraseIdx i, free := s.free ++ [x] } else none

/-- The rest of `get_free_block` (buf_writer.hpp:111-130). -/
def takeStage (s : St α) (c : Nat) : Option (St α) :=
  match s.free.getLast? with
  | some x => some (handOut { s with free := s.free.dropLast } x)
  | none =>
    match s.busy[c]? with
    | none => none
    | some x => if isDone s x then some (handOut { s with busy := s.busy.eraseIdx c } x) else none

/-- The end of `write` (buf_writer.hpp:157-161). -/
def enqueue (s : St α) (b : Nat) (bid : Bid) : St α :=
  { s with bids := upd s.bids b bid, batch := s.batch ++ [(bid.offset, b)], pc := .getting }

/-- One step of the client thread inside a method; `none`: it is blocked (buf_writer.hpp:98-191). -/
def work (n wbs : Nat) (s : St α) (polled : Option Nat) (c : Nat) : Option (St α) :=
  match s.pc with
  | .idle => none
  | .writing b bid false =>
    if wbs ≤ s.batch.length then some { s with pc := .writing b bid true } else some (enqueue s b bid)
  | .writing b bid true =>
    if s.batch.isEmpty then
      some (enqueue s b bid)
    else submitOne s c
  | .getting => (pollStage s polled).bind fun s' => takeStage s' c
  | .flushing => if s.batch.isEmpty then some { s with pc := .draining } else submitOne s c
  | .draining =>
    if s.busy.all (isDone s) then
      some { s with pc := .idle, free := List.range n, busy := [] }
    else none

/-- One step of the system; `none`: not possible now.  `keep`: whether the client goes on using
the buffers it holds when it calls `flush` (calls buf_writer.hpp:98, 137, 164). -/
def step (n wbs : Nat) (keep : Bool) (s : St α) : Op α → Option (St α)
  | .fill b v => if s.pc = .idle then some { s with bufs := upd s.bufs b v } else none
  | .callGet => if s.pc = .idle then some { s with pc := .getting } else none
  | .callWrite b bid =>
    if s.pc = .idle then
      some { s with pc := .writing b bid false, written := s.written ++ [(bid, s.bufs b)], held := s.held.erase b }
    else none
  | .callFlush => if s.pc = .idle then some { s with pc := .flushing, held := if keep then s.held else [] } else none
  | .work polled c => work n wbs s polled c
  | .done b =>
    match s.reqs b with
    | some (bid, false) =>
      some { s with reqs := upd s.reqs b (some (bid, true)), transferred := s.transferred ++ [(bid, s.bufs b)] }
    | _ => none

/-- The documented protocol (buf_writer.hpp:134): only buffers returned by the writer are filled and passed to
`write`. -/
def Legal (s : St α) : Op α → Prop
  | .fill b _ => b ∈ s.held
  | .callWrite b _ => b ∈ s.held
  | _ => True

/-- A client that works with one buffer at a time, as `buf_ostream` does (buf_ostream.hpp:65-74, 92-101). -/
def Legal1 (s : St α) : Op α → Prop
  | .fill b _ => s.held = [b]
  | .callGet => s.held = []
  | .callWrite b _ => s.held = [b]
  | _ => True

/-- The states that the system reaches from the constructor (buf_writer.hpp:76-89). -/
inductive Reach (n wbs : Nat) (keep : Bool) (legal : St α → Op α → Prop) : St α → Prop
  | start (bufs : Nat → α) (bids : Nat → Bid) : Reach n wbs keep legal (init n bufs bids)
  | next {s s'} (op : Op α) : Reach n wbs keep legal s → legal s op → step n wbs keep s op = some s' →
      Reach n wbs keep legal s'

end Foxxll.BufWriter
