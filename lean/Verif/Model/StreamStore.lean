import Verif.Model.Streams
import Verif.Model.Store
/-
The buffered streams (`Model/Streams.lean`) on top of the rest of the library (`Model/Store.lean`): the buffers of
the writer and of the prefetcher are memory of the store, their requests are requests of the store, and a
request completes when a worker has served it.  Nothing is assumed about the content of the disks: what a stream reads is what the
workers have put into its buffers.

/repo/foxxll/mng/buf_ostream.hpp, buf_istream.hpp, buf_istream_reverse.hpp, buf_writer.hpp, block_prefetcher.hpp,
typed_block.hpp.

`request::wait` and `request::poll` throw the error of a failed request (request_with_state.cpp:43, 73).  The streams call them for the
write requests when a buffer leaves the list of busy buffers, and for the read requests in `block_consumed`.

Simplifications: those of the two models; after an exception there are no more steps.  The real `poll` may throw earlier, as soon
as the error has been stored.
-/
namespace Foxxll.E2E
open Foxxll

variable {α : Type}

/-- `typed_block` (typed_block.hpp:265-294): `raw` bytes hold `size` elements and possibly a filler; `dec` reads the
elements, `put` assigns one (`elem[i] = x`, typed_block.hpp:73-101). -/
structure Layout (α : Type) where
  size : Nat
  raw : Nat
  dec : List UInt8 → List α
  put : List UInt8 → Nat → α → List UInt8

/-- `BID<raw_size>` with the file of a disk and an offset (typed_block.hpp:286, bid.hpp:38-51). -/
def blockAt (raw : Nat) (b : BufWriter.Bid) : Mgr.Bid := ⟨.managed b.file, b.offset, raw, raw⟩

/-- How an event ends (request.hpp:114-118 for the error of a request). -/
inductive Out (σ : Type)
  | ok (s : σ)
  /-- not possible now, or undefined -/
  | no
  /-- `io_error` of a failed request -/
  | throws

/-! ### The output stream -/

/-- The stream, the store, and `write_reqs` (buf_writer.hpp:47) as numbers of requests of the store.  Buffer `b` of the
writer is buffer `base + b` of the store. -/
structure OSys (α : Type) where
  o : Stream.OSt α
  d : Store.St
  rid : Nat → Nat

/-- Events: calls of the client and steps inside of them (buf_ostream.hpp:50-126, buf_writer.hpp:67-215), completion of requests, the rest of the program. -/
inductive OEv (α : Type)
  | call (k : Stream.Call α)
  /-- next step inside of a method; a request made in it gets number `r` -/
  | work (polled : Option Nat) (ch : Nat) (r : Nat)
  /-- the request of buffer `b` has been served and becomes ready -/
  | done (b : Nat)
  /-- a step of the workers, or of another client -/
  | env (op : Store.Op)

/-- The buffer whose write is submitted between two states of the writer (buf_writer.hpp:150-152, 175-177, 205-207). -/
def submitted (w w' : BufWriter.St (List α)) : Option Nat := (w'.busy.drop w.busy.length).head?

/-- What happens to the store (buf_ostream.hpp:80, 87; buf_writer.hpp:150-152, 175-177, 205-207). -/
def OSys.store (L : Layout α) (c : Stream.OCfg) (base : Nat) (s : OSys α) : OEv α → Option Store.Op
  | .call (.assign x) => some (.fill (base + s.o.blk) (L.put (s.d.mem (base + s.o.blk)) s.o.elem x))
  | .call _ => none
  | .work p ch r =>
    match BufWriter.step c.n c.wbs false s.o.w (.work p ch) with
    | none => none
    | some w =>
      match submitted s.o.w w with
      | none => none
      | some x => some (.io r true (blockAt L.raw (w.bids x)) (base + x))
  | .done _ => none
  | .env op => some op

/-- The buffers that leave the list of busy buffers (buf_writer.hpp:103-110, 118-125, 179-187, 209-213): `poll`, `wait_any` or `wait` has returned for
their requests. -/
def checked (w w' : BufWriter.St (List α)) : List Nat := w.busy.filter (fun x => !w'.busy.contains x)

/-- `check_errors` (request.hpp:114-118) for the requests of these buffers. -/
def OSys.check (s : OSys α) (bs : List Nat) (o : Stream.OSt α) : Out (Stream.OSt α) :=
  if bs.all (fun x => !s.d.failed.contains (s.rid x)) then .ok o else .throws

/-- What happens to the stream.  A request can become ready when it has been served (request_with_state.cpp:34-44, 69-76). -/
def OSys.stream (qid : Nat → Nat) (c : Stream.OCfg) (s : OSys α) : OEv α → Out (Stream.OSt α)
  | .call k =>
    match Stream.oStep c s.o (.call k) with
    | .ok o => .ok o
    | _ => .no
  | .work p ch _ =>
    match Stream.oStep c s.o (.work p ch) with
    | .ok o => s.check (checked s.o.w o.w) o
    | _ => .no
  | .done b =>
    match s.d.reqs (s.rid b) with
    | none => .no
    | some q =>
      if (s.d.qs (qid q.disk)).served.contains (s.rid b) then
        match Stream.oStep c s.o (.done b) with
        | .ok o => .ok o
        | _ => .no
      else .no
  | .env _ => .ok s.o

/-- The store after the event (no code of its own). -/
def apply (k : Queue.Kind) (qid : Nat → Nat) (d : Store.St) : Option Store.Op → Option Store.St
  | none => some d
  | some op => Store.step k qid d op

/-- `write_reqs` after the event (buf_writer.hpp:47, 150, 175, 205). -/
def OSys.reqs (s : OSys α) (o : Stream.OSt α) : OEv α → Nat → Nat
  | .work _ _ r =>
    match submitted s.o.w o.w with
    | none => s.rid
    | some x => BufWriter.upd s.rid x r
  | _ => s.rid

/-- One event: a step in buf_ostream.hpp:50-126 or buf_writer.hpp:67-215 with the request it makes, or a step of the rest of the program. -/
def OSys.step (k : Queue.Kind) (qid : Nat → Nat) (L : Layout α) (c : Stream.OCfg) (base : Nat) (s : OSys α) (ev : OEv α) : Out (OSys α) :=
  match s.stream qid c ev with
  | .ok o =>
    match apply k qid s.d (s.store L c base ev) with
    | some d => .ok { o := o, d := d, rid := s.reqs o ev }
    | none => .no
  | .no => .no
  | .throws => .throws

/-! ### The input streams -/

/-- Arguments of an input stream (buf_istream.hpp:64-89): the blocks in the order in which they are consumed, the prefetch order and the
number of prefetch buffers. -/
structure ICfg where
  bids : List BufWriter.Bid
  seq : List Nat
  bufSize : Nat

/-- The prefetcher's arguments; `disk` is what the requests deliver (block_prefetcher.hpp:110-123). -/
def ICfg.on (c : ICfg) (disk : Nat → List α) : Prefetch.Cfg (List α) :=
  { seqLength := c.bids.length, seq := c.seq, bufSize := c.bufSize, disk := disk }

/-- Number of buffers of the prefetcher (`nreadblocks`, block_prefetcher.hpp:120, 122). -/
def ICfg.nread (c : ICfg) : Nat := min c.bufSize c.bids.length

/-- The stream, the store, `read_reqs` (block_prefetcher.hpp:79) as numbers of requests of the store, and the
buffers whose read the thread is about to submit (block_prefetcher.hpp:139-152, 190-196).  Buffer `b` of the prefetcher is
buffer `base + b` of the store. -/
structure ISys (α : Type) where
  i : Stream.ISt α
  d : Store.St
  rid : Nat → Option Nat
  todo : List Nat

/-- Events: calls of the client and steps inside of them (buf_istream.hpp:64-160, block_prefetcher.hpp:87-205), progress of the requests, the rest of the program. -/
inductive IEv
  /-- `++is` -/
  | advance
  /-- `block_consumed` gets past the wait for the request of the buffer -/
  | consume
  /-- the wait for the next block returns -/
  | wake
  /-- the thread submits the next read, which gets number `r` -/
  | issue (r : Nat)
  /-- the data of buffer `b` have arrived -/
  | copy (b : Nat)
  /-- the completion handler runs -/
  | signal (b : Nat)
  /-- the request becomes ready -/
  | finish (b : Nat)
  /-- a step of the workers, or of another client -/
  | env (op : Store.Op)

/-- The block whose read into buffer `b` is to be submitted (block_prefetcher.hpp:142, 191-192). -/
def ISys.target (raw : Nat) (c : ICfg) (s : ISys α) (b : Nat) : Option Mgr.Bid :=
  match s.i.p.reqs b with
  | some (n, .issued) => (c.bids[n]?).map (blockAt raw)
  | _ => none

/-- Has the request of buffer `b` been served? (serving_request.cpp:40-63). -/
def ISys.served (qid : Nat → Nat) (s : ISys α) (b : Nat) : Bool :=
  match s.rid b with
  | none => false
  | some r =>
    match s.d.reqs r with
    | none => false
    | some q => (s.d.qs (qid q.disk)).served.contains r

/-- Has the request of buffer `b` failed? (serving_request.cpp:55-58, request.cpp:85-88). -/
def ISys.bad (s : ISys α) (b : Nat) : Bool :=
  match s.rid b with
  | none => false
  | some r => s.d.failed.contains r

/-- Steps of the client thread and of completion: the stream changes, the store does not.  A refill (block_prefetcher.hpp:181-197) leaves a
read to be submitted. -/
def ISys.stream (rev : Bool) (L : Layout α) (c : ICfg) (disk : Nat → List α) (s : ISys α) (op : Stream.IOp) : Out (ISys α) :=
  match Stream.iStep rev L.size (c.on disk) s.i op with
  | .ok i =>
    if s.i.p.submitted.length < i.p.submitted.length then
      .ok { s with i := i, todo := [s.i.blk], rid := Prefetch.upd s.rid s.i.blk none }
    else .ok { s with i := i }
  | _ => .no

/-- One event: a step in buf_istream.hpp:64-160 or block_prefetcher.hpp:87-205, progress of a request, or a step of the rest of the program. -/
def ISys.step (k : Queue.Kind) (qid : Nat → Nat) (rev : Bool) (L : Layout α) (c : ICfg) (base : Nat) (s : ISys α) : IEv → Out (ISys α)
  | .advance => if s.todo.isEmpty then s.stream rev L c (fun _ => []) .advance else .no
  | .consume =>
    if s.todo.isEmpty then
      match s.stream rev L c (fun _ => []) .consume with
      | .ok s' => if s.bad s.i.blk then .throws else .ok s'
      | r => r
    else .no
  | .wake => if s.todo.isEmpty then s.stream rev L c (fun _ => []) .wake else .no
  | .issue r =>
    match s.todo with
    | [] => .no
    | b :: rest =>
      match s.target L.raw c b with
      | none => .no
      | some bid =>
        match Store.step k qid s.d (.io r false bid (base + b)) with
        | none => .no
        | some d => .ok { s with d := d, rid := Prefetch.upd s.rid b (some r), todo := rest }
  | .copy b => if s.served qid b then s.stream rev L c (fun _ => L.dec (s.d.mem (base + b))) (.copy b) else .no
  | .signal b => s.stream rev L c (fun _ => []) (.signal b)
  | .finish b => s.stream rev L c (fun _ => []) (.finish b)
  | .env op =>
    match Store.step k qid s.d op with
    | none => .no
    | some d => .ok { s with d := d }

/-- The constructor (buf_istream.hpp:64-89, block_prefetcher.hpp:110-153): all buffers are to be filled. -/
def ISys.init (rev : Bool) (L : Layout α) (c : ICfg) (d : Store.St) (blk : Nat) : Option (ISys α) :=
  match Stream.iInit rev L.size (c.on (fun _ => [])) blk with
  | .ok i => some { i := i, d := d, rid := fun _ => none, todo := List.range c.nread }
  | _ => none

end Foxxll.E2E
