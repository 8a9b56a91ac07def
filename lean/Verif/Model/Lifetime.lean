/-
Lifetime of requests: reference counting by `request_ptr` (`tlx::counting_ptr`), the pointer `file_` of a request to its file, and the
number of requests that a file knows of.

/repo/foxxll/io/request.hpp, request.cpp, request_with_state.cpp, serving_request.cpp, file.hpp, disk_queued_file.cpp, request_queue_impl_1q.cpp,
request_queue_impl_qwqr.cpp, linuxaio_request.cpp, linuxaio_queue.cpp.

`tlx` is not part of /repo.  `counting_ptr` is modelled by its documented meaning: constructing one from another or from a raw pointer increments the counter of the
object, destroying it decrements the counter and deletes the object if it becomes zero.  `dec_reference` by itself only
decrements (file.hpp:229-232 calls it for a counter that is a member and must not be deleted).

Threads are numbers; each of them can be a client, a worker of a queue, or the posting or waiting thread of linuxaio.  What completion handlers do with
pointers is done by other threads.  `file_` is read and written in one step although it is not atomic.

Left out: data, errors, order of requests, the wait for semaphores, statistics; `io_cancel` is taken to fail (see C32).
-/
namespace Foxxll.Life

/-- `request_state` (request_with_state.hpp:34). -/
inductive Phase
  | op | done | ready
deriving DecidableEq, Repr

/-- A request object: counter of references (request.hpp:49), whether the object still exists, `state_`, `file_`, and whether it is a
`linuxaio_request`. -/
structure Req where
  refs : Nat
  alive : Bool
  phase : Phase
  file : Option Nat
  aio : Bool
deriving DecidableEq, Repr

/-- Where a reference to a request is kept: a `request_ptr` of a client, in a queue, in a local variable of a thread of the library, or the reference that
linuxaio counts for the kernel (linuxaio_request.cpp:58-59). -/
inductive Holder
  | client (t r : Nat)
  | queue (r : Nat)
  | loc (t r : Nat)
  | kernel (r : Nat)
deriving DecidableEq, Repr

/-- The request that a reference refers to (request.hpp:43, 49). -/
def Holder.req : Holder → Nat
  | .client _ r => r
  | .queue r => r
  | .loc _ r => r
  | .kernel r => r

/-- Who completes a request (request_with_state.cpp:46-67, 78-90, linuxaio_queue.cpp:248-263). -/
inductive Who
  | worker | cancel | aio
deriving DecidableEq, Repr

/-- The next step of `completed` (request_with_state.cpp:78-90) or of `cancel` (57-63). -/
inductive CStep
  | setDone | handler | notify | release | setReady
deriving DecidableEq, Repr

/-- Where a thread is. -/
inductive Pc
  | idle
  /-- a worker has taken the request from its queue -/
  | serve (r : Nat)
  /-- the posting thread of linuxaio has taken the request -/
  | post (r : Nat)
  | comp (r : Nat) (k : CStep) (w : Who)
  /-- the last use of the request: the local reference goes away -/
  | drop (r : Nat) (w : Who)
  /-- in `cancel`, `file_` was not null (request_with_state.cpp:51) -/
  | cancel1 (r : Nat)
  /-- in `cancel_request` -/
  | cancel2 (r : Nat)
deriving DecidableEq, Repr

/-- Requests made so far, request objects, all references, threads, operations in the kernel, `request_ref_` of the files (file.hpp:219), whether the
file objects exist.  History: requests for which `wait` has returned, for which `poll` has returned true, and files that warned
when they were deleted (file.hpp:176-183). -/
structure St where
  ids : List Nat
  reqs : Nat → Req
  ptrs : List Holder
  thr : Nat → Pc
  flying : List Nat
  nref : Nat → Nat
  falive : Nat → Bool
  waited : List Nat
  polled : List Nat
  warned : List Nat

/-- Outcomes: `no`: not possible now; use of a deleted request; dereferenced null pointer; use of a deleted file; failed assertion (assertion: request_with_state.cpp:27-32). -/
inductive Res (σ : Type)
  | ok (s : σ)
  | no
  | uaf
  | null
  | fileGone
  | assertFail
deriving Repr

/-- Change of one entry of a table of objects (requests: request.hpp:49, files: file.hpp:54). -/
def upd {β : Type} (f : Nat → β) (k : Nat) (v : β) : Nat → β := fun j => if j = k then v else f j

/-- Change of the members of a request (request.hpp:55-71, request_with_state.hpp:36). -/
def St.req (s : St) (r : Nat) (q : Req) : St := { s with reqs := upd s.reqs r q }
/-- A thread of request_with_state.cpp:46-90, serving_request.cpp:40-63 or linuxaio_queue.cpp:144-308 moves on. -/
def St.pc (s : St) (t : Nat) (p : Pc) : St := { s with thr := upd s.thr t p }

/-- `inc_reference` and a new holder (e.g. linuxaio_request.cpp:59, 86). -/
def St.addPtr (s : St) (h : Holder) : St :=
  { s.req h.req { s.reqs h.req with refs := (s.reqs h.req).refs + 1 } with ptrs := h :: s.ptrs }

/-- `dec_reference` (e.g. linuxaio_queue.cpp:259). -/
def St.dec (s : St) (h : Holder) : St :=
  { s.req h.req { s.reqs h.req with refs := (s.reqs h.req).refs - 1 } with ptrs := s.ptrs.erase h }

/-- Destructor of a `request_ptr`; the destructor of the request asserts that it has been completed (request_with_state.cpp:27-32). -/
def St.rmPtr (s : St) (h : Holder) : Res St :=
  if (s.reqs h.req).refs = 1 then
    if (s.reqs h.req).phase = .op then .assertFail
    else .ok ((s.dec h).req h.req { s.reqs h.req with refs := 0, alive := false })
  else .ok (s.dec h)

/-- Steps that use the request object (any member function of request_with_state.cpp:46-90 or linuxaio_request.cpp:26-106). -/
def St.use (s : St) (r : Nat) (k : Req → Res St) : Res St := if (s.reqs r).alive then k (s.reqs r) else .uaf

/-- `file_->…` (e.g. request.cpp:95-101, serving_request.cpp:53, linuxaio_request.cpp:31, 88). -/
def St.file (s : St) (q : Req) (k : Nat → Res St) : Res St :=
  match q.file with
  | none => .null
  | some f => if s.falive f then k f else .fileGone

inductive Op
  /-- `aread`, `awrite` (disk_queued_file.cpp:23-47, linuxaio_file.cpp:22-46): a new request `r` for file `f`; `refused`: `add_request` throws since the queue is not
  running (request_queue_impl_1q.cpp:66-67) -/
  | submit (t r f : Nat) (aio refused : Bool)
  /-- thread `t` makes a copy of a pointer for thread `t'` -/
  | copy (t t' r : Nat)
  | drop (t r : Nat)
  /-- `wait` returns -/
  | wait (t r : Nat)
  /-- `poll` returns `b` -/
  | poll (t r : Nat) (b : Bool)
  | ioType (t r : Nat)
  /-- `cancel` is called -/
  | cancel (t r : Nat)
  /-- a thread of the queue takes the request -/
  | take (t r : Nat)
  /-- a thread gets the event of the request from the kernel -/
  | event (t r : Nat)
  /-- the next step of thread `t` -/
  | work (t : Nat)
  /-- the file object is destroyed -/
  | delFile (f : Nat)
deriving Repr

/-- Constructor of a request (request.cpp:23-33) and the pointer to it; `add_request` puts a copy of the pointer into the queue (request_queue_impl_1q.cpp:85, request_queue_impl_qwqr.cpp:86,
104, linuxaio_queue.cpp:86), or throws, and the pointer is destroyed. -/
def submit (s : St) (t r f : Nat) (aio refused : Bool) : Res St :=
  if s.falive f then
    let s1 : St := { s.req r { refs := 1, alive := true, phase := .op, file := some f, aio := aio } with
      ids := r :: s.ids, ptrs := .client t r :: s.ptrs, nref := upd s.nref f (s.nref f + 1) }
    if refused then s1.rmPtr (.client t r) else .ok (s1.addPtr (.queue r))
  else .fileGone

/-- `req = queue.front(); queue.pop_front()` (request_queue_impl_1q.cpp:134-135, request_queue_impl_qwqr.cpp:169-170, 196-197, linuxaio_queue.cpp:171-173, 185-187). -/
def take (s : St) (t r : Nat) : Res St :=
  match (s.addPtr (.loc t r)).rmPtr (.queue r) with
  | .ok s' => .ok (s'.pc t (if (s.reqs r).aio then .post r else .serve r))
  | x => x

/-- One step of completion.  `linuxaio_request::completed` uses `file_` first (linuxaio_request.cpp:31). -/
def compStep (s : St) (t r : Nat) (w : Who) (q : Req) : CStep → Res St
  | .setDone =>
    if q.aio then s.file q (fun _ => .ok ((s.req r { q with phase := .done }).pc t (.comp r .handler w)))
    else .ok ((s.req r { q with phase := .done }).pc t (.comp r .handler w))
  | .handler => .ok (s.pc t (.comp r .notify w))
  | .notify => .ok (s.pc t (.comp r .release w))
  | .release =>
    match q.file with
    | none => if w = .cancel ∧ q.aio = false then .null else .ok (s.pc t (.comp r .setReady w))
    | some f =>
      if s.falive f then .ok ({ s.req r { q with file := none } with nref := upd s.nref f (s.nref f - 1) }.pc t (.comp r .setReady w))
      else .fileGone
  | .setReady => .ok ((s.req r { q with phase := .ready }).pc t (.drop r w))

/-- The next step of a thread.
`serve` (serving_request.cpp:40-63): the transfer, then `completed`.  `post`: `fill_control_block` increments the counter (linuxaio_request.cpp:54-75), then the
pointer is destroyed (linuxaio_queue.cpp:203) and the request is submitted.  `cancel1`, `cancel2`: request_with_state.cpp:54-66 and `cancel_request`
(request_queue_impl_1q.cpp:90-115); for linuxaio linuxaio_request.cpp:80-90, linuxaio_queue.cpp:92-141.  `drop`: end of scope of the pointer, or `dec_reference` (linuxaio_queue.cpp:259). -/
def work (s : St) (t : Nat) : Res St :=
  match s.thr t with
  | .idle => .no
  | .serve r => s.use r (fun q => s.file q (fun _ => .ok (s.pc t (.comp r .setDone .worker))))
  | .post r => s.use r (fun _ => .ok { (s.addPtr (.kernel r)).pc t (.drop r .worker) with flying := r :: s.flying })
  | .comp r k w => s.use r (fun q => compStep s t r w q k)
  | .drop r .aio => s.use r (fun _ => .ok ((s.dec (.kernel r)).pc t .idle))
  | .drop r _ =>
    match s.rmPtr (.loc t r) with
    | .ok s' => .ok (s'.pc t .idle)
    | x => x
  | .cancel1 r => s.use r (fun q => s.file q (fun _ => .ok ((s.addPtr (.loc t r)).pc t (.cancel2 r))))
  | .cancel2 r =>
    if .queue r ∈ s.ptrs then
      match s.rmPtr (.queue r) with
      | .ok s' => .ok (s'.pc t (.comp r .setDone .cancel))
      | x => x
    else .ok (s.pc t (.drop r .cancel))

/-- One step; calls: disk_queued_file.cpp:23-47, request_with_state.cpp:34-76 -/
def step (s : St) : Op → Res St
  | .submit t r f aio refused => if s.thr t = .idle ∧ r ∉ s.ids then submit s t r f aio refused else .no
  | .copy t t' r => if s.thr t = .idle ∧ .client t r ∈ s.ptrs then .ok (s.addPtr (.client t' r)) else .no
  | .drop t r => if s.thr t = .idle ∧ .client t r ∈ s.ptrs then s.rmPtr (.client t r) else .no
  | .wait t r =>
    if s.thr t = .idle ∧ .client t r ∈ s.ptrs then
      s.use r (fun q => if q.phase = .ready then .ok { s with waited := r :: s.waited } else .no)
    else .no
  | .poll t r b =>
    if s.thr t = .idle ∧ .client t r ∈ s.ptrs then
      s.use r (fun q => if b = decide (q.phase ≠ .op) then .ok { s with polled := if b then r :: s.polled else s.polled } else .no)
    else .no
  | .ioType t r =>
    if s.thr t = .idle ∧ .client t r ∈ s.ptrs then s.use r (fun q => s.file q (fun _ => .ok s)) else .no
  | .cancel t r =>
    if s.thr t = .idle ∧ .client t r ∈ s.ptrs then
      s.use r (fun q => if q.file = none then .ok s else .ok (s.pc t (.cancel1 r)))
    else .no
  | .take t r => if s.thr t = .idle ∧ .queue r ∈ s.ptrs then take s t r else .no
  | .event t r =>
    if s.thr t = .idle ∧ r ∈ s.flying then
      .ok { s.pc t (.comp r .setDone .aio) with flying := s.flying.erase r }
    else .no
  | .work t => work s t
  | .delFile f =>
    if s.falive f then .ok { s with falive := upd s.falive f false, warned := if s.nref f = 0 then s.warned else f :: s.warned }
    else .no

/-- No requests; all files exist (before the first call of disk_queued_file.cpp:23-47). -/
def init : St :=
  { ids := [], reqs := fun _ => ⟨0, false, .op, none, false⟩, ptrs := [], thr := fun _ => .idle, flying := [], nref := fun _ => 0,
    falive := fun _ => true, waited := [], polled := [], warned := [] }

end Foxxll.Life
