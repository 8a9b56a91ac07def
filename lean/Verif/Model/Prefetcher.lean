/-
Model of `block_prefetcher` (/repo/foxxll/mng/block_prefetcher.hpp, lines 31-233).

One consumer thread calls `pull_block` and `block_consumed`; the I/O threads complete the read
requests in any order.  A read request passes three steps after its submission: the data is
copied into the buffer, the completion handler (`set_switch_handler`, 41-48) turns the switch
of the block on, and the request becomes ready (`request::wait` returns).

Blocks are numbered by their position in the consumption sequence; `disk k` is the content of
the k-th block (the blocks are not written while they are prefetched).  The destructor, the
user's `do_after_fetch` handler and the statistics are left out.
-/
namespace Foxxll.Prefetch

/-- Progress of a read request (request_with_state.cpp:78-90). -/
inductive Stage
  | issued | copied | signalled | ready
deriving DecidableEq, Repr

/-- The constructor arguments (block_prefetcher.hpp:110-115): length of the consumption sequence, prefetch order,
number of prefetch buffers; `disk` is the content of the blocks. -/
structure Cfg (α : Type) where
  seqLength : Nat
  seq : List Nat
  bufSize : Nat
  disk : Nat → α

/-- `nreadblocks` (block_prefetcher.hpp:120, 122). -/
def Cfg.nread {α : Type} (c : Cfg α) : Nat := min c.bufSize c.seqLength

/-- The members (block_prefetcher.hpp:73-83).  `waiting = some k` while the consumer thread is inside
`wait(k)` (block_prefetcher.hpp:87-100).  The last three fields are history: the blocks whose read was submitted,
the (block, buffer) pairs handed out, and those of them the consumer still holds. -/
structure St (α : Type) where
  nextread : Nat
  nextconsume : Nat
  bufs : Nat → Option α
  reqs : Nat → Option (Nat × Stage)
  compl : Nat → Bool
  pref : Nat → Option Nat
  waiting : Option Nat
  submitted : List Nat
  returned : List (Nat × Nat)
  held : List (Nat × Nat)

/-- How a step ends; the assertions are in block_prefetcher.hpp:98, 127-128, 141, 183-188. -/
inductive Res (σ : Type)
  | ok (s : σ)
  /-- the thread cannot take this step now -/
  | blocked
  /-- access outside of an array -/
  | ub
  | assertFail

/-- Assignment to an element of an array, as in block_prefetcher.hpp:151. -/
def upd {β : Type} (f : Nat → β) (k : Nat) (v : β) : Nat → β := fun j => if j = k then v else f j

variable {α : Type}

/-- Submit a read of block `n` into buffer `b` (block_prefetcher.hpp:142-151 and 190-196). -/
def submit (s : St α) (n b : Nat) : St α :=
  { s with pref := upd s.pref n (some b), reqs := upd s.reqs b (some (n, .issued)),
           submitted := s.submitted ++ [n] }

/-- The loop of the constructor (block_prefetcher.hpp:139-152): `k` buffers remain, the current one is `i`. -/
def initLoop (c : Cfg α) : Nat → Nat → St α → Res (St α)
  | 0, _, s => .ok s
  | k + 1, i, s =>
    match c.seq[i]? with
    | none => .ub
    | some n => if n < c.seqLength then initLoop c k (i + 1) (submit s n i) else .assertFail

/-- The constructor (block_prefetcher.hpp:110-153). -/
def init (c : Cfg α) : Res (St α) :=
  if 0 < c.seqLength ∧ 0 < c.bufSize then
    initLoop c c.nread 0
      { nextread := c.nread, nextconsume := 0, bufs := fun _ => none, reqs := fun _ => none,
        compl := fun _ => false, pref := fun _ => none, waiting := none, submitted := [],
        returned := [], held := [] }
  else .assertFail

inductive Op
  /-- the consumer calls `pull_block` (block_prefetcher.hpp:162-166) -/
  | pull
  /-- the consumer calls `block_consumed` with buffer number `b` (block_prefetcher.hpp:172-205) -/
  | consumed (b : Nat)
  /-- the waiting consumer sees the switch on and returns from `wait` -/
  | wake
  /-- the waiting consumer returns from `cond_.wait` without notification
  (onoff_switch.hpp:64-69 does not test the switch again) -/
  | spurious
  /-- the data of the request of buffer `b` arrives -/
  | copy (b : Nat)
  /-- its completion handler runs -/
  | signal (b : Nat)
  /-- the request becomes ready -/
  | finish (b : Nat)
deriving DecidableEq, Repr

/-- `wait(k)` after the switch (block_prefetcher.hpp:96-99): `pref_buffer[k]` is `(size_t)-1` if the block was never
requested, then the assert fails. -/
def handOut (c : Cfg α) (s : St α) (k : Nat) : Res (St α) :=
  match s.pref k with
  | none => .assertFail
  | some b =>
    if b < c.nread then
      .ok { s with waiting := none, returned := s.returned ++ [(k, b)], held := s.held ++ [(k, b)] }
    else .assertFail

/-- `wait(nextconsume++)`: the consumer starts waiting (block_prefetcher.hpp:165, 202). -/
def beginWait (s : St α) : St α := { s with waiting := some s.nextconsume, nextconsume := s.nextconsume + 1 }

/-- The refill part of `block_consumed` (block_prefetcher.hpp:179-197). -/
def refill (c : Cfg α) (s : St α) (b : Nat) : Res (St α) :=
  let s := { s with reqs := upd s.reqs b none, held := s.held.filter (fun p => p.2 != b) }
  if s.nextread < c.seqLength then
    match c.seq[s.nextread]? with
    | none => .ub
    | some n =>
      if n < c.seqLength then
        if s.compl n then .assertFail
        else .ok (submit { s with nextread := s.nextread + 1 } n b)
      else .assertFail
  else .ok s

/-- One step: `pull_block` (block_prefetcher.hpp:162-166), `block_consumed` (172-205), `wait` (87-100), and the I/O threads. -/
def step (c : Cfg α) (s : St α) : Op → Res (St α)
  | .pull =>
    if s.waiting.isSome then .blocked
    else if s.nextconsume < c.seqLength then .ok (beginWait s)
    else .ub
  | .consumed b =>
    if s.waiting.isSome then .blocked
    else if c.nread ≤ b then .ub
    else
      let go :=
        match refill c s b with
        | .ok s' => if c.seqLength ≤ s'.nextconsume then .ok s' else .ok (beginWait s')
        | r => r
      match s.reqs b with
      | none => go
      | some (_, .ready) => go
      | some _ => .blocked
  | .wake =>
    match s.waiting with
    | none => .blocked
    | some k => if s.compl k then handOut c s k else .blocked
  | .spurious =>
    match s.waiting with
    | none => .blocked
    | some k => if s.compl k then .blocked else handOut c s k
  | .copy b =>
    match s.reqs b with
    | some (n, .issued) => .ok { s with bufs := upd s.bufs b (some (c.disk n)), reqs := upd s.reqs b (some (n, .copied)) }
    | _ => .blocked
  | .signal b =>
    match s.reqs b with
    | some (n, .copied) => .ok { s with compl := upd s.compl n true, reqs := upd s.reqs b (some (n, .signalled)) }
    | _ => .blocked
  | .finish b =>
    match s.reqs b with
    | some (n, .signalled) => .ok { s with reqs := upd s.reqs b (some (n, .ready)) }
    | _ => .blocked

/-- A consumer that respects the documented protocol (block_prefetcher.hpp:167-171): `block_consumed` is called only
with a buffer it got and did not give back; `pull_block` only while blocks are left. -/
def Legal (c : Cfg α) (s : St α) : Op → Prop
  | .pull => s.nextconsume < c.seqLength
  | .consumed b => ∃ k, (k, b) ∈ s.held
  | _ => True

/-- States reachable by legal steps; spurious wake-ups occur only if `sp` (no code of its own). -/
inductive Reach (c : Cfg α) (sp : Bool) : St α → Prop
  | start {s} : init c = .ok s → Reach c sp s
  | next {s s'} (op : Op) : Reach c sp s → Legal c s op → (op = .spurious → sp = true) →
      step c s op = .ok s' → Reach c sp s'

end Foxxll.Prefetch
