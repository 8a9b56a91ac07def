/-
Model of the queue for Linux asynchronous I/O (/repo/foxxll/io/linuxaio_queue.cpp,
linuxaio_request.cpp): posting thread, waiting thread, submitters, cancellers, the destructor and
the kernel, as one interleaving system.  Every access to a semaphore, to the list under
`waiting_mtx_`, to a thread state, and every system call is one step.

`tlx::semaphore` (not part of /repo) is taken by its documented meaning: `signal(n)` adds `n`;
`wait(n)` blocks until the value is at least `n`, subtracts `n` and returns the rest;
`try_acquire(n, slack)` does the same if the value is at least `n + slack`, else returns false.

Requests are named by numbers; each is submitted once.  The kernel is an oracle: it accepts any
prefix of a batch, completes operations in any order, and confirms or refuses a cancellation.
Not modelled: reference counts, time stamps, statistics.
-/
namespace Foxxll.Aio

/-! ### The constructor -/

/-- Result of `io_setup` (linuxaio_queue.cpp:49-50). -/
inductive Setup
  | ok
  /-- -1 with errno = EAGAIN -/
  | again
  /-- -1 with another errno -/
  | err
deriving DecidableEq, Repr

/-- Result of the constructor (linuxaio_queue.cpp:34-67). -/
inductive Ctor
  /-- the queue has this many events -/
  | events (n : Int)
  /-- `io_error` -/
  | throws
  /-- shift of a value whose result does not fit the unsigned type (undefined) -/
  | ub
  /-- the fuel of the model is used up (does not happen, see `negotiate_fuel`) -/
  | fuel
deriving DecidableEq, Repr

/-- `max_events_ <<= 1` for a positive 32-bit `int`: a result below 2^32 is converted to `int`
(implementation-defined before C++20, modulo 2^32), a larger one is undefined (linuxaio_queue.cpp:52). -/
def shl1 (m : Int) : Option Int :=
  if 2 * m < 2 ^ 31 then some (2 * m) else if 2 * m < 2 ^ 32 then some (2 * m - 2 ^ 32) else none

/-- The loop of the constructor (linuxaio_queue.cpp:47-59). -/
def negotiate (setup : Int → Setup) : Nat → Int → Ctor
  | 0, _ => .fuel
  | f + 1, m =>
    match setup m with
    | .ok => .events m
    | .err => .throws
    | .again =>
      if m > 1 then
        match shl1 m with
        | some m' => negotiate setup f m'
        | none => .ub
      else .throws

/-- Constructor (linuxaio_queue.cpp:34-59): 0 means 64. -/
def construct (setup : Int → Setup) (desired : Int) : Ctor :=
  negotiate setup 40 (if desired = 0 then 64 else desired)

/-! ### The running queue -/

/-- Position of the posting thread; line numbers of linuxaio_queue.cpp. -/
inductive PPc
  /-- `num_waiting_requests_.wait()` (linuxaio_queue.cpp:151) -/
  | wait
  /-- `n` tokens are left: test of the thread state (linuxaio_queue.cpp:154) -/
  | check (n : Nat)
  /-- lock and test for an empty list (linuxaio_queue.cpp:158-159) -/
  | lock
  /-- `num_waiting_requests_.signal()` (linuxaio_queue.cpp:164) -/
  | putBack
  /-- collected so far; loop test and `num_free_events_.try_acquire(1, 1)` (linuxaio_queue.cpp:176-178) -/
  | collect (reqs : List Nat)
  /-- `num_waiting_requests_.try_acquire()` (linuxaio_queue.cpp:180) and pop -/
  | collect2 (reqs : List Nat)
  /-- `num_free_events_.signal()` (linuxaio_queue.cpp:181) -/
  | giveBack (reqs : List Nat)
  /-- `num_free_events_.wait()` (linuxaio_queue.cpp:193) -/
  | getFree (reqs : List Nat)
  /-- `io_submit` of the rest of the batch (linuxaio_queue.cpp:208) -/
  | submit (cbs : List Nat)
  /-- `num_posted_requests_.signal(k)` (linuxaio_queue.cpp:221) -/
  | sig (k : Nat) (rest : List Nat)
  /-- `io_getevents` (linuxaio_queue.cpp:232) -/
  | reap (cbs : List Nat)
  /-- in `handle_events`: `num_free_events_.signal(n)` (linuxaio_queue.cpp:251) -/
  | hFree (evs : List Nat) (cbs : List Nat)
  /-- in `handle_events`: `completed` (linuxaio_queue.cpp:253-260) -/
  | hComp (evs : List Nat) (n : Nat) (cbs : List Nat)
  /-- in `handle_events`: `num_posted_requests_.wait(n)` (linuxaio_queue.cpp:262) -/
  | hPost (n : Nat) (cbs : List Nat)
  /-- out of the loop -/
  | exit
  /-- TERMINATED -/
  | dead
deriving DecidableEq, Repr

/-- Position of the waiting thread. -/
inductive WPc
  /-- `num_posted_requests_.wait()` (linuxaio_queue.cpp:273) -/
  | wait
  /-- test of the thread state (linuxaio_queue.cpp:276) -/
  | check (n : Nat)
  /-- `io_getevents` (linuxaio_queue.cpp:283) -/
  | reap
  /-- `num_posted_requests_.signal()` (linuxaio_queue.cpp:304) -/
  | comp (evs : List Nat)
  /-- as in `PPc` -/
  | hFree (evs : List Nat)
  | hComp (evs : List Nat) (n : Nat)
  | hPost (n : Nat)
  | exit
  | dead
deriving DecidableEq, Repr

/-- Stage of a cancellation confirmed by the kernel: `handle_events` from `cancel_aio` (under
`waiting_mtx_`), then the rest of `cancel_request` (linuxaio_queue.cpp:130-136). -/
inductive KPc
  | free1 | comp1 | posted1 | free2 | comp2 | posted2
deriving DecidableEq, Repr

/-- Position of the destructor (linuxaio_queue.cpp:69-74, request_queue_impl_worker.cpp:41-70). -/
inductive DPc
  | idle
  /-- posting thread set to TERMINATING -/
  | setP
  /-- and signalled -/
  | sigP
  /-- joined; waiting thread set to TERMINATING -/
  | setW
  | sigW
  /-- joined -/
  | done
deriving DecidableEq, Repr

/-- The members of `linuxaio_queue` (linuxaio_queue.hpp:46-64), its threads and callers, and a history. -/
structure St where
  /-- `max_events_` -/
  maxE : Nat
  /-- `waiting_requests_` -/
  waiting : List Nat
  /-- values of `num_waiting_requests_`, `num_free_events_`, `num_posted_requests_` -/
  nw : Nat
  nf : Nat
  np : Nat
  /-- operations in the kernel: submitted and not reaped -/
  infl : List Nat
  post : PPc
  wt : WPc
  /-- submitters between 87 and 89 -/
  nsig : Nat
  /-- requests of cancellers between 113 and 116 -/
  canc : List Nat
  /-- cancellers between 116 and 118 -/
  ncw : Nat
  /-- confirmed cancellations under way -/
  kcan : List (Nat × KPc)
  dtor : DPc
  /-- history: submitted requests -/
  subm : List Nat
  /-- history: completed requests with the flag given to the handler -/
  comp : List (Nat × Bool)
  /-- history: requests for which the kernel reported an error or a short transfer -/
  kerr : List Nat
deriving DecidableEq, Repr

inductive Res (σ : Type)
  | ok (s : σ)
  | blocked
  /-- null pointer dereference: `file_` of a completed request (linuxaio_request.cpp:31) -/
  | ub
  /-- exception in a thread: `std::terminate` -/
  | terminate
  /-- `tlx_die` -/
  | die

/-- After the constructor (linuxaio_queue.cpp:34-67). -/
def init (maxE : Nat) : St :=
  { maxE := maxE, waiting := [], nw := 0, nf := maxE, np := 0, infl := [], post := .wait, wt := .wait, nsig := 0,
    canc := [], ncw := 0, kcan := [], dtor := .idle, subm := [], comp := [], kerr := [] }

/-- What the kernel decides in a system call (linuxaio_queue.cpp:208-212, 232-235, 283-286). -/
structure Kernel where
  /-- the call fails (other than EAGAIN / EINTR) -/
  err : Bool := false
  /-- `io_submit`: number of accepted operations (0: EAGAIN) -/
  k : Nat := 0
  /-- `io_getevents`: operations reaped -/
  evs : List Nat := []
  /-- those of them that failed or were short -/
  bad : List Nat := []
deriving DecidableEq, Repr

/-- `waiting_mtx_` is held by the posting thread in its collecting loop or by a canceller in
`cancel_aio` (linuxaio_queue.cpp:123-130, 158-190). -/
def locked (s : St) : Bool :=
  (match s.post with
   | .collect _ | .collect2 _ | .giveBack _ => true
   | _ => false) ||
  s.kcan.any (fun c => c.2 == .free1 || c.2 == .comp1 || c.2 == .posted1)

/-- `linuxaio_request::completed` (linuxaio_request.cpp:26-52): dereferences `file_`, which is null
once the request is completed.  The result of the operation (`io_event::res`) is not looked at. -/
def complete (s : St) (r : Nat) (success : Bool) : Res St :=
  if r ∈ s.comp.map (·.1) then .ub else .ok { s with comp := s.comp ++ [(r, success)] }

/-- Remove the reaped operations (linuxaio_queue.cpp:232-235, 283-286). -/
def without (l evs : List Nat) : List Nat := evs.foldl List.erase l

/-- `evs` can be reaped: operations in the kernel, each once, at most `max_events_` (linuxaio_queue.cpp:232-235, 283-286). -/
def reapable (s : St) (evs : List Nat) : Bool :=
  decide (evs.length ≤ s.maxE) && evs.all (fun r => decide (evs.count r ≤ s.infl.count r))

/-- After a part of the batch was accepted (linuxaio_queue.cpp:222-225). -/
def afterSig (rest : List Nat) : PPc := if rest = [] then .wait else .reap rest

/-- One step of the posting thread (linuxaio_queue.cpp:144-263, 310-316). -/
def postStep (s : St) (o : Kernel) : Res St :=
  match s.post with
  | .wait => if s.nw = 0 then .blocked else .ok { s with nw := s.nw - 1, post := .check (s.nw - 1) }
  | .check n => .ok { s with post := if s.dtor ≠ .idle ∧ n = 0 then .exit else .lock }
  | .lock =>
    if locked s then .blocked
    else match s.waiting with
      | [] => .ok { s with post := .putBack }
      | r :: q => .ok { s with waiting := q, post := .collect [r] }
  | .putBack => .ok { s with nw := s.nw + 1, post := .wait }
  | .collect reqs =>
    if s.waiting = [] ∨ s.nf < 2 then .ok { s with post := .getFree reqs }
    else .ok { s with nf := s.nf - 1, post := .collect2 reqs }
  | .collect2 reqs =>
    if s.nw = 0 then .ok { s with post := .giveBack reqs }
    else match s.waiting with
      | [] => .blocked
      | r :: q => .ok { s with nw := s.nw - 1, waiting := q, post := .collect (reqs ++ [r]) }
  | .giveBack reqs => .ok { s with nf := s.nf + 1, post := .getFree reqs }
  | .getFree reqs => if s.nf = 0 then .blocked else .ok { s with nf := s.nf - 1, post := .submit reqs }
  | .submit cbs =>
    if o.err then .terminate
    else if o.k = 0 then .ok { s with post := .reap cbs }
    else if o.k ≤ cbs.length then .ok { s with infl := s.infl ++ cbs.take o.k, post := .sig o.k (cbs.drop o.k) }
    else .blocked
  | .sig k rest => .ok { s with np := s.np + k, post := afterSig rest }
  | .reap cbs =>
    if o.err then .terminate
    else if reapable s o.evs then
      if o.evs = [] then .ok { s with post := .submit cbs }
      else .ok { s with infl := without s.infl o.evs, kerr := s.kerr ++ o.bad.filter (· ∈ o.evs), post := .hFree o.evs cbs }
    else .blocked
  | .hFree evs cbs => .ok { s with nf := s.nf + evs.length, post := .hComp evs evs.length cbs }
  | .hComp [] n cbs => .ok { s with post := .hPost n cbs }
  | .hComp (r :: evs) n cbs =>
    match complete s r true with
    | .ok s' => .ok { s' with post := .hComp evs n cbs }
    | e => e
  | .hPost n cbs => if s.np < n then .blocked else .ok { s with np := s.np - n, post := .submit cbs }
  | .exit => .ok { s with post := .dead }
  | .dead => .blocked

/-- The waiting thread has been told to terminate (linuxaio_queue.cpp:72, 276). -/
def wTerm (s : St) : Bool := s.dtor == .setW || s.dtor == .sigW || s.dtor == .done

/-- One step of the waiting thread (linuxaio_queue.cpp:266-308). -/
def waitStep (s : St) (o : Kernel) : Res St :=
  match s.wt with
  | .wait => if s.np = 0 then .blocked else .ok { s with np := s.np - 1, wt := .check (s.np - 1) }
  | .check n => .ok { s with wt := if wTerm s ∧ n = 0 then .exit else .reap }
  | .reap =>
    if o.err then .terminate
    else if reapable s o.evs && !o.evs.isEmpty then
      .ok { s with infl := without s.infl o.evs, kerr := s.kerr ++ o.bad.filter (· ∈ o.evs), wt := .comp o.evs }
    else .blocked
  | .comp evs => .ok { s with np := s.np + 1, wt := .hFree evs }
  | .hFree evs => .ok { s with nf := s.nf + evs.length, wt := .hComp evs evs.length }
  | .hComp [] n => .ok { s with wt := .hPost n }
  | .hComp (r :: evs) n =>
    match complete s r true with
    | .ok s' => .ok { s' with wt := .hComp evs n }
    | e => e
  | .hPost n => if s.np < n then .blocked else .ok { s with np := s.np - n, wt := .wait }
  | .exit => .ok { s with wt := .dead }
  | .dead => .blocked

/-- One step of confirmed cancellation number `i` (linuxaio_queue.cpp:126-137, 248-263, linuxaio_request.cpp:103). -/
def kStep (s : St) (i : Nat) : Res St :=
  match s.kcan[i]? with
  | none => .blocked
  | some (r, .free1) => .ok { s with nf := s.nf + 1, kcan := s.kcan.set i (r, .comp1) }
  | some (r, .comp1) =>
    match complete s r false with
    | .ok s' => .ok { s' with kcan := s.kcan.set i (r, .posted1) }
    | e => e
  | some (r, .posted1) =>
    if s.np = 0 then .blocked else .ok { s with np := s.np - 1, kcan := s.kcan.set i (r, .free2) }
  | some (r, .free2) => .ok { s with nf := s.nf + 1, kcan := s.kcan.set i (r, .comp2) }
  | some (r, .comp2) =>
    match complete s r false with
    | .ok s' => .ok { s' with kcan := s.kcan.set i (r, .posted2) }
    | e => e
  | some (_, .posted2) =>
    if s.np = 0 then .blocked else .ok { s with np := s.np - 1, kcan := s.kcan.eraseIdx i }

/-- One step of the destructor (linuxaio_queue.cpp:69-74, request_queue_impl_worker.cpp:41-70). -/
def stopStep (s : St) : Res St :=
  match s.dtor with
  | .idle => .ok { s with dtor := .setP }
  | .setP => .ok { s with nw := s.nw + 1, dtor := .sigP }
  | .sigP => if s.post = .dead then .ok { s with dtor := .setW } else .blocked
  | .setW => .ok { s with np := s.np + 1, dtor := .sigW }
  | .sigW => if s.wt = .dead then .ok { s with dtor := .done } else .blocked
  | .done => .blocked

inductive Op
  /-- `add_request` (linuxaio_queue.cpp:76-87) -/
  | add (r : Nat)
  /-- (linuxaio_queue.cpp:89) of one submitter -/
  | addSig
  /-- `cancel_request` of a request still in the list (linuxaio_queue.cpp:103-113) -/
  | cancelW (r : Nat)
  /-- (linuxaio_queue.cpp:116) -/
  | cancelComp (r : Nat)
  /-- (linuxaio_queue.cpp:118) of one canceller -/
  | cancelDone
  /-- `cancel_request` of another request (linuxaio_queue.cpp:123-126); `ok`: the kernel confirms -/
  | cancelK (r : Nat) (ok : Bool)
  /-- a step of confirmed cancellation number `i` -/
  | kstep (i : Nat)
  | post (o : Kernel)
  | wait (o : Kernel)
  | stop
deriving DecidableEq, Repr

/-- A step of a caller, of one of the threads (linuxaio_queue.cpp:76-141, 144-308) or of the destructor (linuxaio_queue.cpp:69-74). -/
def step (s : St) : Op → Res St
  | .add r =>
    if s.dtor ≠ .idle then .die
    else if locked s || decide (r ∈ s.subm) then .blocked
    else .ok { s with waiting := s.waiting ++ [r], subm := s.subm ++ [r], nsig := s.nsig + 1 }
  | .addSig => if s.nsig = 0 then .blocked else .ok { s with nsig := s.nsig - 1, nw := s.nw + 1 }
  | .cancelW r =>
    if s.dtor ≠ .idle then .die
    else if locked s || !decide (r ∈ s.waiting) then .blocked
    else .ok { s with waiting := s.waiting.erase r, canc := s.canc ++ [r] }
  | .cancelComp r =>
    if r ∈ s.canc then
      match complete s r false with
      | .ok s' => .ok { s' with canc := s.canc.erase r, ncw := s.ncw + 1 }
      | e => e
    else .blocked
  | .cancelDone => if s.ncw = 0 ∨ s.nw = 0 then .blocked else .ok { s with ncw := s.ncw - 1, nw := s.nw - 1 }
  | .cancelK r ok =>
    if s.dtor ≠ .idle then .die
    else if locked s then .blocked
    else if ok then
      if r ∈ s.infl then .ok { s with infl := s.infl.erase r, kcan := s.kcan ++ [(r, .free1)] } else .blocked
    else .ok s
  | .kstep i => kStep s i
  | .post o => postStep s o
  | .wait o => waitStep s o
  | .stop => stopStep s

/-- Reachable states; `P` restricts the steps (from the constructor on, linuxaio_queue.cpp:34-67). -/
inductive Reach (P : St → Op → Prop) : St → Prop
  | start (maxE : Nat) : 0 < maxE → Reach P (init maxE)
  | next {s s'} (op : Op) : Reach P s → P s op → step s op = .ok s' → Reach P s'

end Foxxll.Aio
