/-
Mutexes of the library: which functions lock which mutexes, call which functions, access which shared data and wait for what.

Each function is a program of locks, accesses, waits and calls; data are left out, branches are free choices, and every program may stop after any part (early return or
exception, which release the locks).  Completion handlers are programs of the user, which may call the functions of the library.
Threads are interleaved.

Simplifications: reference counters (`tlx::reference_counter`) and `tlx::semaphore` are atomic; their mutexes are leaves and left out.  A wait on a condition variable
releases its mutex and is a wait without it.  Constructors access fields of their own object before it is shared; these accesses are left out, as are those of
destructors.  Disk strategies (`functor` in `new_blocks`) do not call the library.  The timers (timer.hpp), Windows files, and
`FOXXLL_NON_DEFAULT_EXIT_HANDLER` (see C114) are left out.
-/
namespace Foxxll.Locks

/-- The singletons that are used by other parts: iostats.hpp:319, config.hpp:114, disk_queues.hpp:39, block_manager.hpp:54. -/
inductive Sing
  | manager | config | queues | stats
deriving DecidableEq, Repr

/-- Mutexes. -/
inductive Mx
  /-- `singleton_mutex_` (singleton.hpp:69) -/
  | single (k : Sing)
  /-- `block_manager::mutex_` (block_manager.hpp:158) -/
  | manager
  /-- `disk_block_allocator::mutex_` (disk_block_allocator.hpp:127) -/
  | alloc (d : Nat)
  /-- `disk_queues::mutex_` (disk_queues.hpp:47) -/
  | queues
  /-- `queue_mutex_` (request_queue_impl_1q.hpp:38) -/
  | one (q : Nat)
  /-- `read_mutex_`, `write_mutex_` (request_queue_impl_qwqr.hpp:42-43) -/
  | reads (q : Nat)
  | writes (q : Nat)
  /-- `waiting_mtx_` (linuxaio_queue.hpp:54) -/
  | aio (q : Nat)
  /-- mutex in `thread_state_` of a queue (shared_state.hpp:29) -/
  | qstate (q : Nat)
  /-- `waiters_mutex_` (request_with_waiters.hpp:31) -/
  | waiters (r : Nat)
  /-- mutex in `state_` of a request -/
  | rstate (r : Nat)
  /-- `onoff_switch::mutex_` (onoff_switch.hpp:28) -/
  | switch (s : Nat)
  /-- `fd_mutex_` (ufs_file_base.hpp:35) -/
  | fd (f : Nat)
  /-- `memory_file::mutex_` (memory_file.hpp:38) -/
  | mem (f : Nat)
  /-- `file_stats::read_mutex_`, `write_mutex_` (iostats.hpp:62) -/
  | fread (d : Nat)
  | fwrite (d : Nat)
  /-- `stats::wait_mutex_`, `read_mutex_`, `write_mutex_`, `io_mutex_`, `list_mutex_` (iostats.hpp:330, 358) -/
  | swait | sread | swrite | sio | slist
deriving DecidableEq, Repr

/-- Data used by several threads. -/
inductive Fld
  /-- `instance_` (singleton.hpp:66) -/
  | inst (k : Sing)
  /-- `config::max_device_id_` -/
  | devId
  /-- `disk_queues::queues_` -/
  | queues
  /-- `queue_`, `read_queue_`, `write_queue_`, `waiting_requests_` -/
  | one (q : Nat) | reads (q : Nat) | writes (q : Nat) | aio (q : Nat)
  | qstate (q : Nat)
  /-- `waiters_`, `state_`, `file_`, `error_` of a request -/
  | waiters (r : Nat) | rstate (r : Nat) | file (r : Nat) | error (r : Nat)
  | switch (s : Nat)
  /-- `free_space_`, `free_bytes_`, `disk_bytes_` of an allocator -/
  | space (d : Nat)
  /-- `total_allocation_`, `current_allocation_`, `maximum_allocation_` -/
  | counts
  /-- `file_des_`; `ptr_`, `size_` of a memory file -/
  | fd (f : Nat) | mem (f : Nat)
  /-- counters and times of `file_stats` -/
  | fread (d : Nat) | fwrite (d : Nat)
  /-- times of `stats`, list of `file_stats` -/
  | swait | sread | swrite | sio | slist
deriving DecidableEq, Repr

/-- What threads wait for, other than mutexes. -/
inductive Cond
  /-- a request is in state READY2DIE -/
  | ready (r : Nat)
  | switch (s : Nat)
  /-- a worker waits for requests -/
  | sem (q : Nat)
  /-- a canceler takes back the unit of its request from the semaphore (request_queue_impl_1q.cpp:110) -/
  | token (q : Nat)
  /-- end of the worker (request_queue_impl_worker.cpp:63) -/
  | join (q : Nat)
  /-- the lock file of a fileperblock_file has been written (fileperblock_file.cpp:96-97) -/
  | lockFile (f : Nat)
  /-- a free event, or events of the kernel -/
  | events (q : Nat)
deriving DecidableEq, Repr

/-- Functions; parameters: disk, file, queue, request, switch (the functions and their lines: `body`; each is a function of one of the files named at the top of this file, e.g. block_manager.cpp:97-137). -/
inductive Fn
  | get (k : Sing) | ctor (k : Sing) | destroyQueues
  | openFile (f : Nat) | createFile (f : Nat) | lockFpb (f : Nat)
  | setSize (f : Nat) | sizeFd (f : Nat) | sizeMem (f : Nat) | discard (f : Nat) | close (f : Nat) | serveFile (f d : Nat)
  | started (d : Nat) | finished (d : Nat) | canceled (d : Nat) | opFinished (d : Nat) | waitStarted | snapshot
  | makeQueue (q : Nat) | newQueue (q : Nat) | stopThread (q : Nat) | queuesDtor | addReq (q : Nat) | cancelReq (q : Nat) | getQueue | setPrio
  | queueAdd (q : Nat) | queueCancel (q : Nat)
  | submit (q : Nat) | wait (r : Nat) | poll (r : Nat) | addWaiter (r s : Nat) | deleteWaiter (r s : Nat) | notify (r : Nat) | switchOn (s : Nat) | waitAny (s : Nat)
  | completed (r : Nat) | cancel (r q : Nat) | serve (r f : Nat)
  | worker1 (q : Nat) | workerQ (q : Nat)
  | aioCompleted (r : Nat) | aioCancel (r q : Nat) | aioKernel (r q : Nat) | aioPost (q : Nat) | aioWait (q : Nat) | handleEvents (q : Nat)
  | newBlocks | deleteBlock | totals
deriving DecidableEq, Repr

/-- Programs (model notation for the bodies of functions, `locked` is `std::unique_lock`, as in singleton.hpp:77). -/
inductive P
  | nil
  | rd (x : Fld)
  | wr (x : Fld)
  | wait (c : Cond)
  | seq (p q : P)
  | alt (p q : P)
  | star (p : P)
  | any (p : Nat → P)
  /-- `std::unique_lock` and its scope -/
  | locked (m : Mx) (p : P)
  | call (f : Fn)
  /-- code of the user, such as a completion handler -/
  | user

infixr:60 " ;; " => P.seq
infixr:58 " <|> " => P.alt

open P

/-- What stands under an `if`, as in singleton.hpp:78-82. -/
def opt (p : P) : P := nil <|> p

/-- Guarded update of the field of a structure (as in iostats.cpp:49-57). -/
def upd (m : Mx) (x : Fld) : P := locked m (rd x ;; wr x)

/-- Bodies of the functions. -/
def body : Fn → P
  /- singleton.hpp:41-55, 72-84: test without lock, then with lock -/
  | .get k => rd (.inst k) ;; opt (locked (.single k) (rd (.inst k) ;; opt (call (.ctor k) ;; wr (.inst k))))
  /- iostats.cpp:196-214; config.cpp; disk_queues.cpp:26-29 -/
  | .ctor .stats => nil
  | .ctor .config => nil
  | .ctor .queues => call (.get .stats)
  /- block_manager.cpp:33-84; `grow_file` of the constructor of the allocator (disk_block_allocator.hpp:50-57) -/
  | .ctor .manager =>
    call (.get .config) ;; star (any fun f => any fun q => call (.createFile f) ;; call (.get .queues) ;; call (.makeQueue q) ;; call (.setSize f))
  /- singleton.hpp:86-93 for disk_queues -/
  | .destroyQueues => locked (.single .queues) (wr (.inst .queues) ;; call .queuesDtor)
  /- constructor of a file (file.hpp:94-99, iostats.cpp:351-365); `open` and `lock` (ufs_file_base.cpp:178-179, 195-209) -/
  | .openFile f => call (.get .stats) ;; opt (upd .slist .slist) ;; opt (locked (.fd f) (rd (.fd f)))
  /- create_file.cpp:44-209 -/
  | .createFile f => call (.get .config) ;; rd .devId ;; wr .devId ;; call (.openFile f) ;; opt (locked (.fd f) (rd (.fd f))) ;; opt (any fun g => call (.lockFpb g))
  /- fileperblock_file.cpp:81-102 -/
  | .lockFpb f =>
    call (.openFile f) ;; call (.setSize f) ;; any (fun q => call (.submit q)) ;;
      call (.get .stats) ;; upd .swait .swait ;; any (fun r => locked (.rstate r) (rd (.rstate r))) ;; wait (.lockFile f) ;; upd .swait .swait ;; locked (.fd f) (rd (.fd f))
  /- ufs_file_base.cpp:231-235; memory_file.cpp:64-71 -/
  | .setSize f => locked (.fd f) (rd (.fd f)) <|> upd (.mem f) (.mem f)
  /- ufs_file_base.cpp:225-229; memory_file.cpp:59-62 -/
  | .sizeFd f => locked (.fd f) (rd (.fd f))
  | .sizeMem f => rd (.mem f)
  /- memory_file.cpp:73-93; fileperblock_file.cpp:104-119 -/
  | .discard f => nil <|> upd (.mem f) (.mem f)
  /- ufs_file_base.cpp:182-193 -/
  | .close f => upd (.fd f) (.fd f)
  /- syscall_file.cpp:28-118, mmap_file.cpp:26-69; memory_file.cpp:26-41; fileperblock_file.cpp:70-79; linuxaio_file.cpp:48-56 -/
  | .serveFile f d =>
    locked (.fd f) (rd (.fd f) ;; call (.started d) ;; star (rd (.fd f)) ;; call (.finished d)) <|>
    locked (.mem f) (call (.started d) ;; rd (.mem f) ;; wr (.mem f) ;; call (.finished d)) <|>
    (any fun g => call (.openFile g) ;; call (.setSize g) ;; locked (.fd g) (rd (.fd g) ;; call (.started d) ;; star (rd (.fd g)) ;; call (.finished d)) ;; call (.close g)) <|>
    (any fun q => any fun r => call (.submit q) ;; call (.wait r))
  /- iostats.cpp:44-60, 97-113, 279-295, 315-331 -/
  | .started d =>
    (upd (.fwrite d) (.fwrite d) ;; call (.get .stats) ;; upd .swrite .swrite ;; upd .sio .sio) <|>
    (upd (.fread d) (.fread d) ;; call (.get .stats) ;; upd .sread .sread ;; upd .sio .sio)
  /- iostats.cpp:73-86, 126-139, 297-313, 333-349 -/
  | .finished d =>
    (upd (.fwrite d) (.fwrite d) ;; call (.get .stats) ;; upd .swrite .swrite ;; upd .sio .sio) <|>
    (upd (.fread d) (.fread d) ;; call (.get .stats) ;; upd .sread .sread ;; upd .sio .sio)
  /- iostats.cpp:62-71, 115-124 -/
  | .canceled d => (upd (.fwrite d) (.fwrite d) <|> upd (.fread d) (.fread d)) ;; call (.finished d)
  /- iostats.cpp:88-95, 141-148 -/
  | .opFinished d => upd (.fwrite d) (.fwrite d) <|> upd (.fread d) (.fread d)
  /- iostats.hpp:392-410, iostats.cpp:217-276 -/
  | .waitStarted => opt (call (.get .stats) ;; upd .swait .swait)
  /- iostats.hpp:268-276, 429-463; iostats.cpp:367-373: copies without the mutexes of the counters -/
  | .snapshot =>
    call (.get .stats) ;; locked .slist (rd .slist ;; star (any fun d => rd (.fread d) ;; rd (.fwrite d))) ;; rd .swait ;; rd .sread ;; rd .swrite ;; rd .sio
  /- disk_queues.cpp:39-58; constructors start the worker (request_queue_impl_worker.cpp:32-39) -/
  | .makeQueue q => locked .queues (rd .queues ;; opt (call (.newQueue q) ;; wr .queues))
  | .newQueue q => locked (.qstate q) (rd (.qstate q)) ;; locked (.qstate q) (wr (.qstate q))
  /- request_queue_impl_worker.cpp:41-65 -/
  | .stopThread q => locked (.qstate q) (rd (.qstate q)) ;; locked (.qstate q) (wr (.qstate q)) ;; wait (.join q) ;; upd (.qstate q) (.qstate q)
  /- disk_queues.cpp:31-37 -/
  | .queuesDtor => locked .queues (rd .queues ;; star (any fun q => call (.stopThread q)))
  /- disk_queues.cpp:60-85 -/
  | .addReq q => locked .queues (rd .queues ;; opt (call (.newQueue q) ;; wr .queues) ;; call (.queueAdd q))
  /- disk_queues.cpp:87-98 -/
  | .cancelReq q => locked .queues (rd .queues ;; opt (call (.queueCancel q)))
  /- disk_queues.cpp:100-108, 110-116 -/
  | .getQueue => locked .queues (rd .queues)
  | .setPrio => locked .queues (rd .queues)
  /- request_queue_impl_1q.cpp:62-88; request_queue_impl_qwqr.cpp:61-108; linuxaio_queue.cpp:76-90 -/
  | .queueAdd q =>
    locked (.qstate q) (rd (.qstate q)) ;;
      ((locked (.one q) (rd (.one q)) ;; upd (.one q) (.one q)) <|>
       (locked (.writes q) (rd (.writes q)) ;; upd (.reads q) (.reads q)) <|>
       (locked (.reads q) (rd (.reads q)) ;; upd (.writes q) (.writes q)) <|>
       upd (.aio q) (.aio q))
  /- request_queue_impl_1q.cpp:90-115; request_queue_impl_qwqr.cpp:110-148 -/
  | .queueCancel q =>
    locked (.qstate q) (rd (.qstate q)) ;; (upd (.one q) (.one q) <|> upd (.reads q) (.reads q) <|> upd (.writes q) (.writes q)) ;; opt (wait (.token q))
  /- disk_queued_file.cpp:23-47, linuxaio_file.cpp:22-46 -/
  | .submit q => call (.get .queues) ;; call (.addReq q)
  /- request_with_state.cpp:34-44, shared_state.hpp:54-59 -/
  | .wait r =>
    call .waitStarted ;; locked (.rstate r) (rd (.rstate r)) ;; star (wait (.ready r) ;; locked (.rstate r) (rd (.rstate r))) ;; rd (.error r) ;; call .waitStarted
  /- request_with_state.cpp:69-76 -/
  | .poll r => locked (.rstate r) (rd (.rstate r)) ;; rd (.error r)
  /- request_with_waiters.cpp:23-60 -/
  | .addWaiter r _ => locked (.waiters r) (call (.poll r) ;; wr (.waiters r))
  | .deleteWaiter r _ => locked (.waiters r) (wr (.waiters r))
  | .notify r => locked (.waiters r) (rd (.waiters r) ;; star (any fun s => call (.switchOn s)))
  | .switchOn s => locked (.switch s) (wr (.switch s))
  /- request_operations.hpp:103-143 -/
  | .waitAny s =>
    call .waitStarted ;; star (any fun r => call (.addWaiter r s) ;; opt (rd (.error r))) ;; locked (.switch s) (rd (.switch s)) ;; opt (wait (.switch s)) ;;
      star (any fun r => call (.deleteWaiter r s) ;; opt (call (.poll r))) ;; call .waitStarted
  /- request_with_state.cpp:78-90, request.cpp:95-101 -/
  | .completed r =>
    locked (.rstate r) (wr (.rstate r)) ;; opt user ;; call (.notify r) ;; rd (.file r) ;; wr (.file r) ;; locked (.rstate r) (wr (.rstate r))
  /- request_with_state.cpp:46-67 -/
  | .cancel r q =>
    rd (.file r) ;; opt (call (.get .queues) ;; rd (.file r) ;; call (.cancelReq q) ;;
      opt (locked (.rstate r) (wr (.rstate r)) ;; opt user ;; call (.notify r) ;; rd (.file r) ;; wr (.file r) ;; locked (.rstate r) (wr (.rstate r))))
  /- serving_request.cpp:40-63 -/
  | .serve r f => rd (.file r) ;; any (fun d => call (.serveFile f d)) ;; opt (wr (.error r)) ;; call (.completed r)
  /- request_queue_impl_1q.cpp:122-168; request_queue_impl_qwqr.cpp:155-240 -/
  | .worker1 q =>
    star (wait (.sem q) ;; upd (.one q) (.one q) ;; opt (any fun r => any fun f => call (.serve r f)) ;; locked (.qstate q) (rd (.qstate q)) ;; opt (wait (.sem q))) ;;
      locked (.qstate q) (wr (.qstate q))
  | .workerQ q =>
    star (wait (.sem q) ;; (upd (.writes q) (.writes q) <|> upd (.reads q) (.reads q)) ;; opt (any fun r => any fun f => call (.serve r f)) ;;
      locked (.qstate q) (rd (.qstate q)) ;; opt (wait (.sem q))) ;; locked (.qstate q) (wr (.qstate q))
  /- linuxaio_request.cpp:26-52 -/
  | .aioCompleted r => rd (.file r) ;; opt (any fun d => call (.opFinished d) <|> call (.canceled d)) ;; call (.completed r)
  /- linuxaio_request.cpp:80-90; linuxaio_queue.cpp:92-127, 138-140: the request waits in the queue, or `io_cancel` fails -/
  | .aioCancel r q =>
    rd (.file r) ;; call (.get .queues) ;; rd (.file r) ;; call .getQueue ;; locked (.qstate q) (rd (.qstate q)) ;; upd (.aio q) (.aio q) ;;
      (call (.aioCompleted r) <|> locked (.aio q) (rd (.file r)))
  /- linuxaio_queue.cpp:123-138, linuxaio_request.cpp:93-106: `io_cancel` succeeds -/
  | .aioKernel r q =>
    rd (.file r) ;; call (.get .queues) ;; rd (.file r) ;; call .getQueue ;; locked (.qstate q) (rd (.qstate q)) ;; upd (.aio q) (.aio q) ;;
      locked (.aio q) (rd (.file r) ;; call (.handleEvents q)) ;; call (.aioCompleted r)
  /- linuxaio_queue.cpp:144-246, 248-263 -/
  | .aioPost q =>
    star (wait (.sem q) ;; locked (.qstate q) (rd (.qstate q)) ;; upd (.aio q) (.aio q) ;; wait (.events q) ;; star (any fun r => rd (.file r)) ;;
      star (wait (.events q) ;; call (.handleEvents q))) ;; locked (.qstate q) (wr (.qstate q))
  | .handleEvents _ => star (any fun r => call (.aioCompleted r))
  /- linuxaio_queue.cpp:266-308 -/
  | .aioWait q =>
    star (wait (.sem q) ;; locked (.qstate q) (rd (.qstate q)) ;; wait (.events q) ;; call (.handleEvents q)) ;; locked (.qstate q) (wr (.qstate q))
  /- block_manager.hpp:164-248, disk_block_allocator.hpp:158-260 -/
  | .newBlocks =>
    locked .manager (star (any fun d => rd (.space d)) ;;
      star (any fun d => any fun f => locked (.alloc d) (rd (.space d) ;; opt (call (.setSize f)) ;; wr (.space d)) ;; rd .counts ;; wr .counts) ;; rd .counts ;; wr .counts)
  /- block_manager.hpp:250-268 -/
  | .deleteBlock =>
    locked .manager (any fun d => any fun f => locked (.alloc d) (rd (.space d) ;; wr (.space d)) ;; call (.discard f) ;; rd .counts ;; wr .counts)
  /- block_manager.cpp:97-137 -/
  | .totals => locked .manager (star (any fun d => rd (.space d)) <|> rd .counts)

/-- Functions for users (and for completion handlers) (public members of `file`, `request`, `block_manager` (block_manager.hpp:54-131), `disk_queues` (disk_queues.hpp:39), as in request_with_state.hpp:48-51). -/
def api : Fn → Bool
  | .get _ | .createFile _ | .setSize _ | .sizeFd _ | .sizeMem _ | .close _ | .serveFile _ _ | .snapshot | .makeQueue _ | .setPrio | .submit _ | .wait _ | .poll _
  | .waitAny _ | .cancel _ _ | .aioCancel _ _ | .aioKernel _ _ | .newBlocks | .deleteBlock | .totals | .destroyQueues => true
  | _ => false

/-- Actions of threads (locks and accesses, as in iostats.cpp:49-57; waiting, as in shared_state.hpp:54-59). -/
inductive Act
  | lock (m : Mx)
  | unlock (m : Mx)
  | rd (x : Fld)
  | wr (x : Fld)
  | wait (c : Cond)
deriving DecidableEq, Repr

/-- The sequences of actions of a program.  Only functions in `A` are used (no code of its own; a call runs the body of the function). -/
inductive Tr (A : Fn → Prop) : P → List Act → Prop
  | nil : Tr A .nil []
  | rd {x} : Tr A (.rd x) [.rd x]
  | wr {x} : Tr A (.wr x) [.wr x]
  | wait {c} : Tr A (.wait c) [.wait c]
  | seq {p q l k} : Tr A p l → Tr A q k → Tr A (.seq p q) (l ++ k)
  /-- early return, exception -/
  | stop {p q l} : Tr A p l → Tr A (.seq p q) l
  | left {p q l} : Tr A p l → Tr A (.alt p q) l
  | right {p q l} : Tr A q l → Tr A (.alt p q) l
  | done {p} : Tr A (.star p) []
  | again {p l k} : Tr A p l → Tr A (.star p) k → Tr A (.star p) (l ++ k)
  | any {p l} (n : Nat) : Tr A (p n) l → Tr A (.any p) l
  | locked {m p l} : Tr A p l → Tr A (.locked m p) (.lock m :: l ++ [.unlock m])
  | call {f l} : A f → Tr A (body f) l → Tr A (.call f) l
  | user0 : Tr A .user []
  | user {f l k} : api f = true → Tr A (.call f) l → Tr A .user k → Tr A .user (l ++ k)

/-- What each thread has still to do, and who has locked which mutex (no code of its own; a mutex has at most one owner). -/
structure St where
  rem : Nat → List Act
  holder : Mx → Option Nat

/-- A step of thread `t` (no code of its own; `std::unique_lock` waits for the mutex, as in singleton.hpp:77). -/
inductive Step (t : Nat) (s : St) : St → Prop
  | lock {m l} : s.rem t = .lock m :: l → s.holder m = none →
      Step t s ⟨fun u => if u = t then l else s.rem u, fun k => if k = m then some t else s.holder k⟩
  | unlock {m l} : s.rem t = .unlock m :: l → Step t s ⟨fun u => if u = t then l else s.rem u, fun k => if k = m then none else s.holder k⟩
  | rd {x l} : s.rem t = .rd x :: l → Step t s ⟨fun u => if u = t then l else s.rem u, s.holder⟩
  | wr {x l} : s.rem t = .wr x :: l → Step t s ⟨fun u => if u = t then l else s.rem u, s.holder⟩
  | wait {c l} : s.rem t = .wait c :: l → Step t s ⟨fun u => if u = t then l else s.rem u, s.holder⟩

/-- What a thread runs: code of the user, or a worker of a queue (workers: request_queue_impl_1q.cpp:122-168, request_queue_impl_qwqr.cpp:155-240, linuxaio_queue.cpp:266-308). -/
def thread (A : Fn → Prop) (l : List Act) : Prop :=
  Tr A .user l ∨ ∃ q, Tr A (.call (.worker1 q)) l ∨ Tr A (.call (.workerQ q)) l ∨ Tr A (.call (.aioPost q)) l ∨ Tr A (.call (.aioWait q)) l

/-- Any number of threads (no code of its own). -/
inductive Reach (A : Fn → Prop) : St → Prop
  | start {rem} : (∀ t, thread A (rem t)) → Reach A ⟨rem, fun _ => none⟩
  | next {s s'} (t : Nat) : Reach A s → Step t s s' → Reach A s'

end Foxxll.Locks
