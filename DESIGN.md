# Formal model of foxxll: design

The subject is the C++ library in `/repo/foxxll` (read as text, never run).
This directory holds a Lean 4 model of its logic core and theorems about it.

* `properties.jsonl` – the semantic properties C01, C02, … in API terms.
* `lean/Verif/Model/*.lean` – executable model, function by function; each
  definition cites the file and lines it transcribes and the simplifications.
* `lean/Verif/Spec/*.lean` – small, independent specifications (what is claimed).
* `lean/Verif/Proofs/*.lean` – helper lemmas.
* `lean/Verif/Props/*.lean` – the property theorems, one file per area, each
  beside an `example` showing that its hypotheses are met by a concrete,
  non-trivial case.
* `MANIFEST.json` – property → theorem names and status.
* `seeded/LOG.jsonl` – mutation log: realistic bugs seeded into a scratch copy
  of the model and which theorems caught them.

## General modelling decisions

* Integers are `Nat`/`Int` except where the property is about wrap-around
  (C44/C45 use `BitVec`). Sizes and offsets are assumed not to overflow 64 bits.
* A C++ function that mutates state becomes a function returning the new state;
  exceptions, failed `assert`s and undefined behaviour are distinct outcomes
  (`Except`/custom result types), never silently totalised.
* Threads are modelled as small-step transition systems: one step per critical
  section or atomic statement (mutex-protected blocks, semaphore operations,
  single atomic writes). A theorem quantifies over every interleaving (every
  list of steps). Sequential consistency is assumed for the shared variables
  (they are all mutex/semaphore protected in the code).
* The operating system, kernel AIO, `malloc`, random generators, I/O completion
  order are parameters/oracles that the theorems quantify over.
* Doubles in the statistics are modelled as exact integers (clock ticks).

## Trusted base

* The Lean 4.33.0 kernel; `propext`, `Classical.choice`, `Quot.sound` (each
  property theorem's axioms are a subset of these three; listed by
  `lean/Verif/Axioms.lean` through `#print axioms`).
* The faithfulness of the transcription (checked by reading only).
* C++ standard library containers and tlx (`semaphore`, `merge_combine`,
  `counting_ptr`) behave as documented. In particular
  `tlx::semaphore::wait` returns the value after the decrement.
* What each definition simplifies is said in its comment.

## Properties: what is modelled, how it is proved

| id | model | proof idea | status |
|----|-------|-----------|--------|
| C01 | `disk_block_allocator` as state machine over a sorted region list | invariant: byte-level partition of [0,total) into free and live | proved |
| C02 | same | same invariant, sums | proved |
| C03 | same | canonical form of interval lists is unique | proved |
| C04 | `add_free_region` | case analysis on neighbours in the sorted list | proved |
| C05 | `new_blocks` incl. recursion on halves | induction on the recursion | proved |
| C06 | same | **false**: witness by fragmentation; partial: growth only in the single-block/no-contiguous-region case | partial |
| C07 | `block_manager::new_blocks` over a list of allocators | per-disk invariant of C01 lifted | proved |
| C08 | disk choice loop | direct | proved |
| C09 | counters of the manager | **false** for run-time sized BIDs (code subtracts the template parameter, 0); partial for fixed size | partial |
| C10 | failure path | **false** with 2 disks; partial for single-disk requests | partial |
| C11 | strategies as functions with random choices as parameters | modular arithmetic | proved |
| C12 | strategies as functions with random choices as parameters | modular arithmetic | proved |
| C13 | `simulate_async_write` with nondeterministic tie-breaking, `stable_sort` | invariants of the simulation | proved |
| C14 | `simulate_async_write` with nondeterministic tie-breaking, `stable_sort` | invariants of the simulation | proved |
| C15 | `block_prefetcher`: consumer and I/O threads as interleaved steps, each read in three stages | **false** with spurious wake-ups (witness); otherwise invariant tying every submitted block to its buffer; missing: nothing else of the statement | partial |
| C16 | `buf_ostream`, `buf_istream`, `buf_istream_reverse` composed with the models of `buffered_writer`, `block_prefetcher` and `compute_prefetch_schedule` | invariants on top of those of C15/C17; **false** with spurious wake-ups, otherwise complete | partial |
| C17 | `buffered_writer`: client and I/O threads interleaved, poll results and heap ties arbitrary | **false** (buffer held across `flush`); otherwise the buffers are partitioned into held/free/busy/batched/current, and `written` = transferred + pending + batched + current as multisets | partial |
| C18 | same as C17 | **false** for batch size >= number of buffers; otherwise counting the buffers shows that some step is enabled, and a measure decreases | partial |
| C19 | `write_pool`, `prefetch_pool`, `read_write_pool` with one client thread, the I/O threads and a cancellation oracle | blocks are partitioned into free/busy/client blocks and requests belong to busy blocks (invariant); **false** with spurious wake-ups | partial |
| C20 | same as C19 | invariant: "content after all pending writes" = content written last, per identifier; pending reads are behind all writes of their identifier; **false** for reordering queues | partial |
| C21 | `request_queue_impl_1q` and `_qwqr` as interleaving machines: worker, submitters, cancellers, destructor; each semaphore and mutex access is a step | token invariant (semaphore + held tokens = queued + waiting cancellers), FIFO equation between history and queue, decreasing measure for progress | proved |
| C22 | same as C21, `stop_thread` | **false** witness for both queues; otherwise token invariant at `sem_.wait() == 0` | partial |
| C23 | same as C21, two queues with write priority | **false** after a cancellation; FIFO equation per queue; invariant "in the read phase all writes before the head of the read queue are started" | partial |
| C24 | `serving_request`, `request_with_state`: one request with its worker and any number of cancelling threads; every access to the state, the file pointer and the waiters is a step | **false** witness (null `file_`); otherwise case invariant on who took the request (nobody, worker, canceller); measure for completion | partial |
| C25 | same as C24 | **false** witness; same invariant | partial |
| C26 | `wait_any` with `add_waiter`, `delete_waiter`, `notify_waiters`; switch per call | invariant "registered at all requests passed so far; registered and notified implies switch on"; rank function and fairness for the return | proved |
| C27 | `onoff_switch` with the contract of `std::condition_variable` (notify_one picks any sleeper, spurious wake-ups) | two **false** witnesses; invariant on woken threads | partial |
| C28 | `shared_state` for any value type; unlock and `notify_all` are separate steps | invariant "sleeping on the current value implies a pending notify_all"; fairness argument on infinite runs | proved |
| C29 | `linuxaio_queue`: posting thread, waiting thread, submitters, cancellers, destructor and kernel as one interleaving machine; every semaphore access and system call is a step; the kernel is an oracle | **false** witness; counting invariants (free events + in flight + reserved + reaped = maximum; token equations for the other two counters) | partial |
| C30 | constructor loop with `io_setup` as a parameter, 32-bit shift | **false** witness; induction on the loop: it never succeeds after a refusal | partial |
| C31 | `linuxaio_queue`: posting thread, waiting thread, submitters, cancellers, destructor and kernel as one interleaving machine; every semaphore access and system call is a step; the kernel is an oracle | **false**: closed deadlock state; otherwise token equation, and a decreasing measure for draining | partial |
| C32 | `linuxaio_queue`: posting thread, waiting thread, submitters, cancellers, destructor and kernel as one interleaving machine; every semaphore access and system call is a step; the kernel is an oracle | **false** witnesses (null dereference, deadlock) | partial |
| C33 | `serve` of syscall_file, loop by loop; a file is a size and bytes; each round of lseek/read/write/_size is an oracle (failure or any count) | induction over the rounds: done = one exact transfer, throws = a prefix with a reason | proved |
| C34 | `memory_file`: `serve`, `set_size`, `discard`; realloc/malloc are oracles that may fail | **false** witness (failed realloc); refinement to position -> last byte written | partial |
| C35 | `filename_for_block` (decimal, 20 digits), `serve`, `discard` over a directory tree, open and truncate included | names: value of the padded digits and length; frame lemma; **false** witnesses (shorter read, TRUNC); invariant file = data of the last write | partial |
| C36 | `disk_config`: `parse_line`, `parse_fileio`, `fileio_string` on strings, option by option; `tlx::split` and `strtoul` modelled, `expand_environment_variables` and `parse_si_iec_units` are parameters | **false** witness; split of joined fields, strtoul of printed numbers, one step per option | partial |
| C37 | `disk_config`: `parse_line`, `parse_fileio`, `fileio_string` on strings, option by option; `tlx::split` and `strtoul` modelled, `expand_environment_variables` and `parse_si_iec_units` are parameters; element access and `substr` may fail | **false** witness; case analysis over all options | partial |
| C38 | `config`: constructor with unset members, `add_disk`, `load_config_file` (exceptions included), `find_config`, `initialize`, ranges | **false** witnesses; invariant disks = regular ++ flash | partial |
| C39 | `next_device_id`, `update_max_device_id`, their use in `create_file`, 32 bit arithmetic | **false** witnesses; invariant counter > all ids | partial |
| C40 | `file_stats`, `stats`: each function as sections atomic under their mutex, with the time as parameter, in any interleaving; times are integers | invariant time = acc * begin + finished durations - running starts | proved |
| C41 | `file_stats`, `stats`: each function as sections atomic under their mutex, with the time as parameter, in any interleaving; times are integers | invariant time = number of ticks before the last event with an active operation; sum bound; order shown to be needed | proved |
| C42 | `create_file_stats`: list of objects with addresses, lower_bound | **false** witnesses; invariant list sorted, ids and objects in bijection | partial |
| C43 | `file_stats_data` and `stats_data` `+`, `-`; unsigned arithmetic modulo 2^32, 2^64; tlx::merge_combine is external (no source in /repo), assumed to merge sorted sequences | induction over both lists; insertion keeps the list sorted | proved |
| C44 | arithmetic helpers | bit-vector / Nat arithmetic | proved |
| C45 | arithmetic helpers | bit-vector / Nat arithmetic | proved |
| C46 | arithmetic helpers | bit-vector / Nat arithmetic | proved |
| C47 | arithmetic helpers | bit-vector / Nat arithmetic | proved |
| C48 | arithmetic helpers | bit-vector / Nat arithmetic | proved |
| C49 | addressable queues | refinement to lists | proved |
| C50 | addressable queues | refinement to lists | proved |
| C51 | `swappable_block`, `block_scheduler`, algorithms online_lru and offline_lfd, function by function; I/O synchronous; new_block and fill_default are parameters | refinement: invariant between blocks, memory, disk and what the client knows; **false** witness | partial |
| C52 | `swappable_block`, `block_scheduler`, algorithms online_lru and offline_lfd, function by function; I/O synchronous; new_block and fill_default are parameters | invariant (free, attached, allocated), carried over to all histories by forgetting the data; permutation, counting | proved |
| C53 | `swappable_block`, `block_scheduler`, algorithms online_lru and offline_lfd, function by function; I/O synchronous; new_block and fill_default are parameters; algorithm simulation with 64 bit counts | invariant count = references + k, k > 0 iff the block has data; **false** witnesses | partial |
| C54 | `swappable_block`, `block_scheduler`, algorithms online_lru and offline_lfd, function by function; I/O synchronous; new_block and fill_default are parameters; priorities in 64 bit arithmetic | invariant: stored priority = priority of the next use in the rest of the sequence; **false** witness | partial |
| C55 | `longhash1` on 64-bit words | each line is injective (odd multiplier / xor-shift) | proved |
| C56 | `posix_memalign` variant of `aligned_alloc` | **false** witness; partial by modular arithmetic | partial |
| C57 | block manager on top of the allocator | per-disk accounting invariant summed over the disks | proved |
| C58 | same as C26; destroyed switch = undefined behaviour | **false** witness; invariant locating every registration by the position of the call | partial |
| C59 | same as C26 | **false** witness; invariant "after the wait a finished request is still ahead of the scan" | partial |
| C60 | same as C27 | **false** witness with two waiters; invariant "at most one sleeper, and the switch is not what it waits for" | partial |
| C61 | `linuxaio_queue`: posting thread, waiting thread, submitters, cancellers, destructor and kernel as one interleaving machine; every semaphore access and system call is a step; the kernel is an oracle; `stop_thread` | **false** witnesses; otherwise token equations at termination, decreasing measure for the return | partial |
| C62 | `linuxaio_queue`: posting thread, waiting thread, submitters, cancellers, destructor and kernel as one interleaving machine; every semaphore access and system call is a step; the kernel is an oracle | counting invariant over all places | partial |
| C63 | `linuxaio_queue`: posting thread, waiting thread, submitters, cancellers, destructor and kernel as one interleaving machine; every semaphore access and system call is a step; the kernel is an oracle; history of errors reported by the kernel | **false** witness; invariant | partial |
| C64 | `mmap_file::serve`; a store through the mapping behind the end of file is lost (POSIX), an access behind the last page is SIGBUS | **false** witness; direct proof | partial |
| C65 | lines 371-383 of config.cpp | **false** witness; induction over the path | partial |
| C66 | `disk_config`: `parse_line`, `parse_fileio`, `fileio_string` on strings, option by option; `tlx::split` and `strtoul` modelled, `expand_environment_variables` and `parse_si_iec_units` are parameters | **false** witness; closed form of `parse_line` | partial |
| C67 | `file_stats`, `stats`: each function as sections atomic under their mutex, with the time as parameter, in any interleaving; times are integers | as C40 | proved |
| C68 | flag `running_` of the scoped timers | induction over the calls | proved |
| C69 | `disk_config`: `parse_line`, `parse_fileio`, `fileio_string` on strings, option by option; `tlx::split` and `strtoul` modelled, `expand_environment_variables` and `parse_si_iec_units` are parameters | evaluation for an arbitrary object | proved |
| C70 | `strtoul` and the test of `endp` | **false** witness; form of accepted texts | partial |
| C71 | `swappable_block`, `block_scheduler`, algorithms online_lru and offline_lfd, function by function; I/O synchronous; new_block and fill_default are parameters | invariant: the queue is sorted by falling number of calls since the last release | proved |
| C72 | `swappable_block`, `block_scheduler`, algorithms online_lru and offline_lfd, function by function; I/O synchronous; new_block and fill_default are parameters | invariant: identifiers in use and free identifiers partition the range; blocks not in use are blank | proved |
| C73 | `swappable_block`, `block_scheduler`, algorithms online_lru and offline_lfd, function by function; I/O synchronous; new_block and fill_default are parameters | induction over the queue (C51 refinement kept), invariant of the final state | proved |
| C74 | `swappable_block`, `block_scheduler`, algorithms online_lru and offline_lfd, function by function; I/O synchronous; new_block and fill_default are parameters | drain of the priority queue is a sorted permutation; the switch is a silent step of the refinement of C51 | proved |
| C75 | `ufs_file_base`, `create_file`, opening of the disks by `block_manager`, `~config` as a monad over recorded system calls; every result of a system call is an oracle over the calls before | forms of the calls of a successful / failed construction | proved |
| C76 | `ufs_file_base`, `create_file`, opening of the disks by `block_manager`, `~config` as a monad over recorded system calls; every result of a system call is an oracle over the calls before | count of open descriptors over the recorded calls; **false** witness | partial |
| C77 | `ufs_file_base`, `create_file`, opening of the disks by `block_manager`, `~config` as a monad over recorded system calls; every result of a system call is an oracle over the calls before | position of the granted lock in the recorded calls; **false** witness | partial |
| C78 | `ufs_file_base`, `create_file`, opening of the disks by `block_manager`, `~config` as a monad over recorded system calls; every result of a system call is an oracle over the calls before | no destructive call recorded; **false** witnesses | partial |
| C79 | `ufs_file_base`, `create_file`, opening of the disks by `block_manager`, `~config` as a monad over recorded system calls; every result of a system call is an oracle over the calls before | induction over the disks; **false** witness | partial |
| C80 | `ufs_file_base`, `create_file`, opening of the disks by `block_manager`, `~config` as a monad over recorded system calls; every result of a system call is an oracle over the calls before | forms of construction; **false** witness | partial |
| C81 | `disk_queues` as a map from ids to queues with type, length and requests; tlx_die and use of a null pointer are outcomes | invariant between the history of calls and each queue; **false** witness | partial |
| C82 | `ufs_file_base`, `create_file`, opening of the disks by `block_manager`, `~config` as a monad over recorded system calls; every result of a system call is an oracle over the calls before | induction over the disks; **false** witness | partial |
| C83 | `singleton` as interleaving of threads with call stacks of `get_instance`; constructors and destructors are the lists of singletons they ask for; exceptions anywhere; default exit handlers | invariant: mutexes held = frames on the stacks, null pointer while a constructor runs | proved |
| C84 | `singleton` as interleaving of threads with call stacks of `get_instance`; constructors and destructors are the lists of singletons they ask for; exceptions anywhere; default exit handlers | invariant: the singletons a constructor received are registered; **false** witness | partial |
| C85 | `singleton` as interleaving of threads with call stacks of `get_instance`; constructors and destructors are the lists of singletons they ask for; exceptions anywhere; default exit handlers | ranks fall along a stack and from the waiting to the holding thread; measure | proved |
| C86 | `ufs_file_base`, `create_file`, opening of the disks by `block_manager`, `~config` as a monad over recorded system calls; every result of a system call is an oracle over the calls before | the events of a constructor that throws; **false** witnesses with NO_LOCK and without direct I/O | partial |
| C87 | `timer` with time stamps as arguments, natural numbers instead of doubles | induction over the history from its end; **false** witnesses | partial |
| C88 | `wait_all`, `poll_any`, `cancel_all` as one thread, one step for each access to a request; workers serve any requests in between | invariant of the position of the call; **false** witness with an I/O error | partial |
| C89 | `wait_all`, `poll_any`, `cancel_all` as one thread, one step for each access to a request; workers serve any requests in between | invariant against the state at the call; **false** witness with an I/O error | partial |
| C90 | `wait_all`, `poll_any`, `cancel_all` as one thread, one step for each access to a request; workers serve any requests in between | invariant: number canceled = requests newly canceled among those visited | proved |
| C91 | `offline_lru_prefetching`: client calls as functions; transfers and completion handlers are steps at every point where the client looks at what the I/O threads did; histories from a new scheduler with switches of algorithm | simulation by the scheduler of C51 with synchronous I/O (`view`): in the view all pending transfers are done; invariant on givers, takers and requests; **false** witness with extract | partial |
| C92 | `offline_lru_prefetching`: client calls as functions; transfers and completion handlers are steps at every point where the client looks at what the I/O threads did; histories from a new scheduler with switches of algorithm | same invariant without the contents of the blocks (`Slack`: contents erased to `Unit`, writes left over by `release` are permitted), so for all sequences; plan of the scheduled operations; **false** witnesses | partial |
| C93 | `offline_lru_prefetching`: client calls as functions; transfers and completion handlers are steps at every point where the client looks at what the I/O threads did; histories from a new scheduler with switches of algorithm | same invariant; **false** witness with extract | partial |
| C94 | `offline_lru_prefetching`: client calls as functions; transfers and completion handlers are steps at every point where the client looks at what the I/O threads did; histories from a new scheduler with switches of algorithm | part of the invariant (plan), contents erased as for C92; requests of `acquire` by looking at each step | proved |
| C95 | `offline_lru_prefetching`: client calls as functions; transfers and completion handlers are steps at every point where the client looks at what the I/O threads did; histories from a new scheduler with switches of algorithm | invariant, contents erased as for C92: the first operation not scheduled found no internal block; **false** witness after flush | partial |
| C96 | `offline_lru_prefetching`: client calls as functions; transfers and completion handlers are steps at every point where the client looks at what the I/O threads did; histories from a new scheduler with switches of algorithm | counting attached and reserved internal blocks over the identifiers, contents erased as for C92 | proved |
| C97 | `offline_lru_prefetching`: client calls as functions; transfers and completion handlers are steps at every point where the client looks at what the I/O threads did; histories from a new scheduler with switches of algorithm | minimum of the set; **false** witness | partial |
| C98 | block manager, queues with workers (model of C21-C23) and `syscall_file` in one system with requests and buffers; histories with the client's memory of its writes | invariant over all steps: every byte of a block on the disk comes from the last served write; queue order of writes and reads (C23); live blocks do not overlap; disk growth keeps contents; **false** witness with cancellation | partial |
| C99 | `stats_data::summary`, `fetch_sum` for unsigned counters (modulo) and doubles (numbers, infinity, NaN; no rounding); `std::sort` as relation with its precondition (strict weak order) | sorted permutation; counting below and above the middle; sum invariant under permutation; **false** witnesses: overflow, NaN | partial |
| C100 | the warnings of `stats_data::to_ostream` as lists of devices, index loops with bounds | prefix of the ascending list = devices below half of the last; the last element stops the loop; **false** witness | partial |
| C101 | `simulate_async_write`, `compute_prefetch_schedule` (model of C13); the prefetcher with disks in lock step as specification (`Spec/Steps.lean`) | duality: fetch times reversed are write times; queued writing is a lower bound for every order and is reached by one; invariant of the simulation: fetch times possible with `m` buffers, not behind queued writing with the buffers kept; **false** witnesses | partial |
| C102 | main loops of `benchmark_files` as functions on words of files and buffer; words returned by reads are a parameter | buffer invariant (pattern and sector numbers), scan of sectors and words; **false** witnesses | partial |
| C103 | main loops of `benchmark_files` as functions on words of files and buffer; words returned by reads are a parameter | offsets by induction over steps; **false** witness | partial |
| C104 | loop of `create_files`: list of all writes | ranges of the writes by induction; **false** witness | partial |
| C105 | sizes and loop of `run_test` as functions; unsigned arithmetic without overflow | division with rounding; loop splits the range; **false** witness | partial |
| C106 | loop of `benchmark_disks_alloc` as a list of batches | induction over batches; **false** witnesses | partial |
| C107 | same with `Strategy.striping` of C11 | counting residues; **false** witness | partial |
| C108 | machine of the queues of C23 (`Model/Queues.lean`) | family of runs by induction on the number of writes (**false** witness); invariant on started requests against order of submission | partial |
| C109 | `export_files` on a file system as a function from names to files; failures of `remove`, `rename`, `truncate` are parameters | case distinction; last `/` of the name of the block; **false** witnesses | partial |
| C110 | `wfs_file_base`, `wincall_file`: one object, its file and Win32 calls with documented effects; other failures by oracle | case distinction over calls; **false** witnesses | partial |
| C111 | `wfs_file_base`, `wincall_file`: one object, its file and Win32 calls with documented effects; other failures by oracle | composition of calls; invariant `bytes_per_sector_` not set; **false** for all direct files and witnesses | partial |
| C112 | `wfs_file_base`, `wincall_file`: one object, its file and Win32 calls with documented effects; other failures by oracle | composition; comparison with `syscall_file` of C33; **false** witness | partial |
| C113 | `wfs_file_base`, `wincall_file`: one object, its file and Win32 calls with documented effects; other failures by oracle | composition; **false** witness | partial |
| C114 | `register_exit_handler`, `run_exit_handlers` as small steps of threads with the mutex | invariant on what the holder of the mutex does, records of registrations and calls; **false** witnesses | partial |
| C115 | streams, writer and prefetcher of C14–C16 as clients of the store of C98 (block manager, queues, workers, files with partial transfers); other clients as arbitrary operations that respect ownership (`Model/StreamStore.lean`) | invariant that connects the requests of the writer with the last writes of the store; refinement of the prefetcher by what the buffers hold when the data arrive; composition; **false** witness | partial |
| C116 | requests with reference count and `file_`, files with count of requests, holders of references (clients, queues, local variables, kernel), threads in small steps of serve, completed, cancel, posting and event handling (`Model/Lifetime.lean`) | invariant: each unfinished request is in exactly one stage (queued, owned by one thread, in the kernel); counts equal numbers of holders; **false** witnesses | partial |
| C117 | programs of locks, accesses and waits for all functions that lock mutexes (`Model/Locks.lean`), with branches, loops, early returns and handlers that call any function; threads interleave single actions | order of the mutexes as a rank; all programs lock upwards (checked by structure, for all nesting of calls); invariant of the interleaving; **false** witnesses | partial |
| C118 | programs of locks, accesses and waits for all functions that lock mutexes (`Model/Locks.lean`), with branches, loops, early returns and handlers that call any function; threads interleave single actions | a guard for each piece of data; all programs access it with the guard locked; mutual exclusion as invariant; **false** witnesses | partial |
| C119 | `disk_block_allocator` with sums modulo 2^64, size of the backing file, `set_size` that fails at will (`Model/Alloc64.lean`) | agreement with the allocator over natural numbers by induction on the request, from the invariant of C01-C05; **false** witnesses | partial |
| C120 | `disk_block_allocator` with sums modulo 2^64, size of the backing file, `set_size` that fails at will (`Model/Alloc64.lean`) | partition of the disk into free, live and lost bytes; lost blocks are a proper prefix of the request; alignment argument of C06 for one block size; **false** witness | partial |
| C121 | write, prefetch and read/write pool with failing requests, submissions and allocations, destructors, events of the I/O threads inside the methods (`Model/PoolFail.lean`) | counting invariant over the places of each block, owner of each pending request; **false** witnesses; agreement with `Model/Pools.lean` call by call (`C121_agree…`), with the requests that end while a call waits as its events | partial |
| C122 | write, prefetch and read/write pool with failing requests, submissions and allocations, destructors, events of the I/O threads inside the methods (`Model/PoolFail.lean`) | induction over the loops of the destructors; **false** witness | partial |
| C123 | write, prefetch and read/write pool with failing requests, submissions and allocations, destructors, events of the I/O threads inside the methods (`Model/PoolFail.lean`) | case analysis of `wait_any` and `check_all_busy`, request numbers of entries stay below the next one, identifiers of hints stay distinct; **false** witness and general statements | partial |
| C124 | write, prefetch and read/write pool with failing requests, submissions and allocations, destructors, events of the I/O threads inside the methods (`Model/PoolFail.lean`) | invariant; **false** witness | partial |
| C125 | block manager, linuxaio queues (`Model/Linuxaio.lean`), kernel that transfers single bytes of the operations in flight in any order, files and buffers (`Model/AioStore.lean`) | invariant relating transferred bytes, file and buffers; frame lemmas for the queue (which requests the kernel has, has reported); **false** witnesses | partial |
| C126 | write, prefetch and read/write pool with failing requests, submissions and allocations, destructors, events of the I/O threads inside the methods (`Model/PoolFail.lean`) | invariant on identifiers; relation "requests kept" through all calls; **false** witness | partial |
| C127 | `aligned_alloc`/`aligned_dealloc` with 64-bit sizes on a heap of buffers with a byte memory; the C heap answers and scribbles arbitrarily within its contract (`Model/AlignedHeap.lean`) | invariant on buffers, blocks and stored pointers over all programs; agreement with the single call of C46 by induction over the activations; **false** witnesses | partial |
| C128 | constructors of the input streams composed with the models of the configuration, the schedule, the prefetcher and the streams (`Model/StreamOpen.lean`) | the ids given out by `create_file` are below `max_device_id`, then C13-C16 compose; **false** witnesses | partial |
| C129 | search of the configuration file with environment variables and a file system that may change between test and opening; lines of the file as `std::getline` gives them (`Model/FindConfig.lean`) | case analysis against the documented list; induction over the lines; **false** witnesses | partial |
| C130 | the pools of `Model/Pools.lean` on top of block manager, queues, workers and files of `Model/Store.lean`; cancellations go to the queue of the request (`Model/PoolStore.lean`) | simulation: with served requests taken out, the composed system is a reachable state of the pools over disks that keep the order; needs that requests being canceled are the newest of their block, and the order theorem of the queues; **false** witness by running the system | partial |
| C131 | destructors of the scheduler and of the algorithms, on the states of `Model/BlockScheduler.lean` and `Model/Ahead.lean`; the simulation with its real blocks (`Model/SchedEnd.lean`) | accounting of internal blocks (free + attached + remaining = max), evictable blocks are the attached ones that are not acquired; data erased for prefetching; **false** witness | partial |
| C132 | as C131 | invariant of the identifiers in simulation; allocation is determined by the set of identifiers in use; **false** witnesses | partial |
| C133 | `Model/BlockScheduler.lean` with exceptions: requests, `new_block` and `new` fail as an oracle says, failed requests leave anything, a `flush` that throws leaves requests in flight that are served at any later time (`Model/SwapFail.lean`) | invariant relating the scheduler to what the client knows, with a set of blocks hit by failures; every function with its normal and its exceptional end; **false** witnesses by running the model; `C133_agree`: without failures this model and that of C51 do the same, though `flush` serves its requests in another order (bisimulation, commuting writes of distinct external blocks) | partial |
| C134 | as C133 | the accounting of C52 with a bound in place of the equation; **false** witnesses | partial |
| C135 | a batch tool as an interleaving system of the tool and the worker threads; batches of any sizes, requests and calls that fail (`Model/Tools.lean`) | invariant: requests in flight belong to the current batch, behind the position of `wait_all`; **false** witnesses | partial |
| C136 | `main` of `foxxll_tool`, ends of the subtools (`Model/Tools.lean`) | case analysis; **false** witnesses | partial |
| C137 | version numbers and their check (`Model/Tools.lean`) | linear arithmetic; **false** witness | partial |
| C138 | the scheduler of `Model/BlockScheduler.lean` on top of block manager, queues, workers and files of `Model/Store.lean`; each call is a list of commands, between which anything may happen in the store (`Model/SwapStore.lean`) | refinement: the commands executed one after the other compute what C51 has in one step; invariant of buffers and files between commands, order theorem of the queues, rules of the store follow from the order of the commands | partial |
| C139 | any number of schedulers of C138 over one store, with single commands interleaved (`Model/SwapWorld.lean`) | invariant: for each scheduler the steps of the others are steps of clients that keep the rules (projection to runs of C138); blocks are apart since new blocks were not allocated before; liveness lifted from C138 | partial |
| C140 | block manager, queues, workers and files of all kinds, with `discard` at deletion (`Model/DevStore.lean`) | invariant as C98 over an abstract notion of the content of a block, for which each kind of file is shown to keep other blocks; **false** witnesses | partial |
| C141 | `disk_queues` with constructors of queues that throw, the order of evaluation of `queues_[id] = new …` being a parameter (`Model/QueueSetup.lean`) | refinement to the map of C81 for calls that returned, induction over calls; **false** witnesses | partial |
| C142 | prefetcher and input streams of C15/C16 with a set of failing reads; `wait` throws for them (`Model/StreamFail.lean`) | invariant over all interleavings and exceptions on top of that of C15; **false** witnesses | partial |
| C143 | writer and output stream of C16-C18 with writes that fail, poll loop step by step, switch of `wait_any`, destructor (`Model/WriterFail.lean`) | invariants for any client and for legal ones, simulation by C17 up to the first exception, decreasing bound on the calls that return after a failure; **false** witnesses | partial |
| C144 | clock, objects of both classes and the log (`Model/Reports.lean`) | invariant relating log and objects to the list of calls; **false** witnesses | partial |
| C145 | query functions with and without assertions, programs that add, change and ask (`Model/ConfigQuery.lean`) | induction over programs; **false** witnesses | partial |
| C146 | default constructors on top of the configuration of C38/C145 and the strategies of C11 (`Model/StrategyConfig.lean`) | composition of C11 and C38; **false** witnesses | partial |
| C147 | destructor over block manager, queues and files (`Model/SwapDestroy.lean`) | simulation of the destructor by calls of `deinitialize`, then C138; **false** witness | partial |
| C148 | bytes of an array of blocks and of a file, with loads, stores, copies and transfers (`Model/BlockElems.lean`) | refinement: addresses of members are disjoint (C47), so bytes agree with what is known of values; induction over programs | proved |
| C149 | several pools, the client and the heap, with an allocation that fails at any point (`Model/PoolMem.lean`) | counts of each block among owners and heap are kept by every call, up to the blocks lost; requests under way are covered by busy entries; **false** witnesses | partial |
| C150 | hash and comparison of identifiers, table as a list of buckets, rehashing at any time (`Model/BidHash.lean`) | invariant (entries are in the bucket of their hash, keys differ); simulation by a list of entries without hashes | proved |
| C151 | `check_nref` at its two places in `serve`, over the model of C116; `check_alignment` (`Model/NrefCheck.lean`) | invariants of C116 (counter = number of holders, file present); new references come only from others | partial |
| C152 | constructor loop with a failure oracle per disk, what the language destroys after an exception, destructor, over the 64-bit allocator of C119 (`Model/ManagerLife.lean`) | closed form of the loop by induction; invariant that the file is as large as the disk; every disk has a history of C119 | partial |
| C153 | as C143 (`Model/WriterFail.lean`) | case analysis of every place where a thread waits, with the invariant of C143; decreasing measure over the batch, the requests in flight and the position in the poll loop; **false** witness by running the model | partial |
| C154 | `CASE` chain as an inductive type, `SWITCH` as a recursion, `DEFAULT` by 32-bit arithmetic (`Model/Helpers.lean`) | induction over the chain; **false** witness by evaluation | partial |
| C155 | loop of `swap_1D_arrays` over a bounded memory, pops on lists, `to_str`/`atoi64`/`atouint64` on the texts of C70 (`Model/Helpers.lean`) | loop invariant (positions passed are exchanged, others as before); induction over the number of pops; lemmas on decimal digits; **false** witnesses by evaluation | partial |
| C156 | as C142 (`Model/StreamFail.lean`) | invariant of C142 gives for every place where the client waits a step of some thread; decreasing measure over the position of the client and the stages of the requests; agreement with `Model/Streams.lean` by induction over runs; **false** witness by running the model | partial |
| C157 | as C143 (`Model/WriterFail.lean`: `oStep`) | before the first exception C153 applies; after it an invariant that every client of the writer keeps (blocks in the list have a request, failed ones stay in it) leaves no place to wait; termination by a lexicographic measure (batch and stage, requests in flight, position in the poll loop) | proved |

For partial claims, the note in `MANIFEST.json` says what is missing; the negation
(theorem named `…_false`) is proved where the code violates the property.

## Not modelled

logging, timers' clock
source, of the tools: parsing of the command line, timing and printing.

## Disagreements between code and documented or expected behaviour

Each is proved as a `…_false` theorem or a witness lemma in the file named.

* utils.hpp:95: the comment of `round_up_to_power_of_two` says (48,4) = 64, the code returns 48 (48 = 3*2^4) (`Props/Arith.lean`).
* C56: the `posix_memalign` variant (aligned_alloc.hpp:70) under-allocates by one alignment unit when `sizeof(char*) + meta_info_size` is a multiple of the alignment (`Props/Arith.lean`).
* C06: a disk without autogrow grows when no contiguous region fits although enough bytes are free in total (disk_block_allocator.hpp:206-217, `Props/Alloc.lean`).
* C09: `delete_block` of a `BID<0>` subtracts the template parameter 0 instead of `bid.size` (block_manager.hpp:267), so `current_allocation` never decreases (`Props/Manager.lean`).
* C15: `onoff_switch::wait_for_on` (common/onoff_switch.hpp:64-69) does not re-test the switch after `cond_.wait`; after a spurious wake-up the prefetcher hands out a buffer whose read has not finished (`Props/Prefetcher.lean`).
* C10: when `new_blocks` throws for a later disk, blocks already allocated on earlier disks stay allocated and `maximum_allocation` is not updated (block_manager.hpp:221-247, `Props/Manager.lean`).
* C17: `buffered_writer::flush` (buf_writer.hpp:186-190) puts every buffer on the free list, also one the client holds; if the client then writes it, it can get the same buffer back while its content is batched (`Props/BufWriter.lean`, witness with lost data `C17_wrong_data`).
* C18: `buffered_writer` (buf_writer.hpp:76-78) accepts a batch size not smaller than the number of buffers; `get_free_block` then waits forever (`Props/BufWriter.lean`).
* C19: `write_pool::steal` (write_pool.hpp:151-170) asserts that `wait_any` found a finished request, but `wait_any` waits on an `onoff_switch`, which a spurious wake-up can leave (`Props/Pools.lean`).
* C20: with the linuxaio queue nothing orders two writes of the same block whose cancellation failed, nor a read behind a write that was stolen from the write pool (`Props/Pools.lean`).
* C22: `stop_thread` sets TERMINATING (request_queue_impl_worker.cpp:45) before `sem.signal()` (46); a worker that passes its termination check in between takes the token of the last queued request for the termination token and drops that request (`Props/Queues.lean`).
* C23: `request_queue_impl_qwqr::cancel_request` can leave the worker in its read phase with an empty read queue (qwqr.cpp:110-148, 183-184); a read submitted later then overtakes a write submitted before it. The hypothesis `ordered` of C20 therefore also fails for this queue after a cancellation.
* C24: `request_with_state::cancel` tests `file_` and then calls `file_->get_request_queue…` (request_with_state.cpp:51-55) while the worker may set `file_` to null in `release_file_reference`; null dereference (also a data race on `file_` and `error_`). `poll()` may return true before the completion handler has run.
* C25: request_interface.hpp documents that the handler is not called for a cancelled request; `cancel()` calls it with success=false (request_with_state.cpp:58-59).
* C58: `wait_any` (request_operations.hpp:112-138) is not exception safe: `poll()` inside `add_waiter` throws for a failed request and the switch on the stack stays in `waiters_` of earlier requests.
* C59: after a spurious wake-up `wait_any` returns `reqs_end`; with an empty range it never returns (`wait_any_empty`).
* C27: `wait_for_on`/`wait_for_off` use `if` (onoff_switch.hpp:64-77); besides spurious wake-ups, `off()` releases a `wait_for_on` waiter.
* C60: `on()` and `off()` use `notify_one`, so a second waiter is not released.
* C30: the constructor of `linuxaio_queue` (linuxaio_queue.cpp:47-59) doubles the number of events after EAGAIN; the intent is to halve it. It then always ends in an exception (or a shift overflow).
* C31: handle_events (linuxaio_queue.cpp:262) says `will never block`; it can: for a moment in the waiting thread (operation reaped before it is counted), and for good in the posting thread after a partial batch (`C31_false`).
* C29/C32: `cancel_request` (linuxaio_queue.cpp:123-138) repeats the accounting already done by `handle_events` in `cancel_aio`: event freed twice, completed twice (null dereference), posted counter decreased twice.
* C61: as C22, for both threads of the linuxaio queue.
* C63: `io_event::res` is never read; errors and short transfers of linuxaio requests are completed as successes.
* linuxaio (not a numbered property): the `io_getevents` call of the posting thread does not handle EINTR, unlike the one of the waiting thread; exceptions thrown in the two threads end in std::terminate; a cancelled linuxaio request calls `read_canceled`/`write_canceled`, also if it was never counted by `read_started`.
* C34: `memory_file::set_size` stores the result of `realloc` untested and sets `size_` (memory_file.cpp:66-73); `discard` copies from an untested `malloc`.
* C35: `fileperblock_file::serve` calls `set_size(bytes)` before reads as well (fileperblock_file.cpp:70-79): a read shorter than the block truncates it. With TRUNC every access empties the file first.
* C64: `mmap_file::serve` does not extend the file: a write behind its end is lost or ends in SIGBUS, where syscall_file extends the file.
* C36: `fileio_string` prints ` flash`, which `parse_fileio` does not know (config.cpp:573); ` raw_device` is refused for linuxaio although `create_file` sets it there; queue -2 is not printed.
* C37: `parse_fileio` calls `substr(npos)` for a blank text (config.cpp:406-408) and throws `std::out_of_range`; config.hpp documents `std::runtime_error`.
* C38: `initialize` sets `first_flash = 0` after disks may have been added (config.cpp:71); `first_flash` and `max_device_id_` are not initialised by the constructor; `add_disk` counts a disk as regular wherever it is put; a failing `load_config_file` leaves a half-filled list that the next call accepts.
* C39: `create_file` uses the id counter without initialising the configuration (create_file.cpp:63-70).
* C65: `path.replace(pos, 3, ..)` removes three characters (config.cpp:381).
* C66: `parse_line` does not reset `raw_device` and `queue_length` (config.cpp:354-362).
* C40: after `read_canceled`/`write_canceled` the request is taken off count and bytes, but its time stays in the sum.
* C41: `timestamp()` is taken before the mutex is locked (iostats.cpp:47, 75, 100, 128, 219, 246), so the time order the property assumes is not ensured; out of order the parallel time is wrong (`C41_order_needed`).
* C42: `create_file_stats` tests `it->get_device_id()` instead of `== device_id` and returns `back()` after an insertion elsewhere (iostats.cpp:360-364).
* C43: a difference keeps devices that are only in the subtrahend without negating them. The constructor of `file_stats_data` (iostats.hpp:268-276) reads the counters without the mutexes of `file_stats`: a data race, not modelled.
* C70: `queue=`, `queue_length=`, `devid=` with an empty text are accepted as 0; values are truncated to 32 bits.
* C51: `acquire(id, true)` of a block with external data followed by a release that is not dirty makes undefined memory the data of the block (block_scheduler.hpp:692-700, 718-724).
* C51: `swappable_block::fill_default` (block_scheduler.hpp:153) does nothing: without a subclass that overrides it a new block shows data of an evicted one. It is not virtual, so only a scheduler instantiated with the subclass calls the other.
* C52: the number of internal blocks is rounded up (block_scheduler.hpp:372), so that max_internal_memory may be exceeded by less than a block.
* C53: in simulation mode `initialize` counts an invalid external block as data, and the counts start with 1 whatever the number of references (block_scheduler.hpp:792-793, 872-878).
* C54: the order is extracted next, not used again, deinitialized next (block_scheduler.hpp:941-948): a block extracted, initialized and acquired again is evicted before one not used again.
* C54: the comment on `next_use` allows (false, 3), initialized next; it cannot occur for an evictable block.
* C75: with FOXXLL_DIRECT_IO_OFF and REQUIRE_DIRECT the constructor of `ufs_file_base` returns normally with descriptor -1 and `is_device_` uninitialized (ufs_file_base.cpp:70-75); `create_file` then fails in `lock()`.
* C76: an exception in `_after_open` leaves the constructor, so that the destructor does not close the descriptor (ufs_file_base.cpp:100-105, 135-180). The block manager keeps raw pointers to allocators, which leak as well if a later disk cannot be opened.
* C77: `create_file` calls `lock()` unconditionally (create_file.cpp:80, 110, 119, 135, 167, 180), so that NO_LOCK is effective only for files constructed directly.
* C78: `delete_on_exit` is cleared after the device was opened (create_file.cpp:92-97, 147-152), so it remains set if opening fails; for mmap it is never cleared.
* C79: `~config` unlinks the files of all disks with the option, opened or not (config.cpp:53-64); the default configuration has the option.
* C80: file.hpp says that REQUIRE_DIRECT implies DIRECT, but need_alignment_ looks at DIRECT only (ufs_file_base.cpp:102).
* C81: `queue=-2` is accepted for any file although it is DEFAULT_LINUXAIO_QUEUE. A linuxaio queue dies on a foreign request; request_queue_impl_qwqr only prints a message and stores it; the worker then calls a null pointer.
* C81: of several linuxaio disks only the queue_length of the first one is used (disk_queues.cpp:45-53).
* C82: config.hpp:91-92 says one queue for each disk by default; the default is the number of the disk, which another disk may name (block_manager.cpp).
* C84: `create_instance` assigns `instance_` before `register_exit_handler` (singleton.hpp:79-81) while `get_instance` reads it without the mutex (43-46): the registration order may be wrong, and then `~disk_queues` uses the destroyed statistics.
* C83: `instance_` is volatile, not atomic, and read without the mutex: a data race.
* C84: with FOXXLL_NON_DEFAULT_EXIT_HANDLER `run_exit_handlers` holds its mutex while it calls the handlers (exithandler.cpp:66-73); a destructor that creates a singleton would deadlock. Not modelled; the result of `atexit` is ignored.
* C86: `fileperblock_file::lock` writes a page to the lock file before it asks for the lock (fileperblock_file.cpp:81-102); only the constructor of the base file locks before, and not with NO_LOCK. The exception then destroys the file, which removes the lock file of the other process (54-59).
* C87: `timer::stop` adds the time since the last start again if it is called twice, and `start` forgets the running interval (timer.hpp:82-96); nothing checks this.
* C88: the documentation of `wait_all` says that it waits until all requests are completed; `wait` throws at the first error, and the rest is still being processed (with buffers the caller may destroy).
* C89: `poll` reads the state before it checks for errors: it throws also for a request that is not yet completed, and then `poll_any` does not look at the others. The documentation of poll_any describes a bool result; it returns an iterator.
* C91/C93: `release` (block_scheduler.hpp:1779-1780) starts a write for a block whose `extract_external_block` is scheduled, without a taker; when the block is evicted later it is clean, so its internal block is given away and read into although the write is still pending (1590-1605). The external block then holds the data of another block (`Props/Ahead.lean`, `badActs`).
* C92: `extract_external_block` (1876-1890) does not detach the internal block; for a block released before and still in memory the assertion `!is_internal` (239) fails. The other algorithms detach it.
* C92: `block_scheduler::flush` calls `evictable_blocks_empty`, which here runs `deinit` (1692-1696) and gives up the schedule, so the next recorded call fails its assertion.
* C92: a call that is not the next of the sequence, or one after its end, fails an assertion; `give_up` (1523-1532), which would switch to online_lru as offline_lfd does, is never called.
* C92: `allocate_swappable_block` may move the vector into which completion handlers hold iterators (1183, 1203; 472).
* C91: the destructor (1679-1690) deinitializes blocks still evictable: their contents are lost if the algorithm is destroyed without handing over its blocks (as documented in its log message).
* C91: `write_done_soon` and `shall_read` (1181-1182) are plain `bool` used by two threads; the protocol of 1264-1280 and 1371-1382 needs sequential consistency, which the model assumes.
* C97: the class comment (1146-1147) says least recently used; `free_evictable_blocks` is a `std::set` and `pop_begin` takes the smallest identifier (1583).
* C98: consequence of C23: in the default kind of queue (`request_queue_impl_qwqr`) `cancel_request` can leave the worker in its read phase with an empty read queue; it then serves a read although a write of the same block was submitted before, and the read returns the old content of the disk. Nothing in the interface forbids cancellation of other requests.
* C99: `summary` and `fetch_sum` add `unsigned` counters in `unsigned`; with 2^31 operations on each of two devices total, average and median are wrong (the median is less than the minimum, since the two middle values are added before division).
* C99: the speed of a device without transfers is 0/0 = NaN; sorting values with NaN by `<` violates the precondition of `std::sort` (undefined behaviour formally; with common implementations only a wrong order).
* C100: `to_ostream` judges "slow disks" by bytes per device divided by the same parallel time, i.e. by the share of the data; a fast device with few data is called slow, a slow device with the same amount of data is not. The first device of each list is always named, also when nothing was transferred in that direction.
* C101: async_schedule.hpp:18-21 refers to the paper on the duality between prefetching and queued writing, whose schedule is optimal. In `simulate_async_write`, if the disk of the next block is free and has blocks queued (async_schedule.cpp:134-140), the queued block is started but the next block is not put into the buffer that became free; the buffer is lost for the rest of the simulation. Schedules are up to 45 % slower than the optimum in experiments (`C101_false`: 4 instead of 3 steps).
* C101: for `L <= D` the schedule is the sequence itself, which is not optimal if blocks share disks (`C101_false_short`).
* C102: benchmark_files.cpp writes the sector number as 32 bits and compares with the full number, so every sector beyond 2 TiB is reported as wrong.
* C102: the loop that writes sector numbers runs over all words of a step, the one that checks them over whole sectors; if a step ends behind word 42 of a sector its number is reported as error (and a pattern there is accepted).
* C102: verification restores the pattern only at the places of the sector numbers; any other wrong word stays in the buffer and, with writing, is written and reported again in the next step.
* C102: after the first wrong word of a file ("jump to next") the loop increment skips the first word of the next file.
* C103: the loop condition `offset + step_size <= endpos` makes the computation of a smaller last step (and of `current_num_blocks`) unreachable; a rest of the range is silently not tested.
* C104: create_files.cpp halves the last step; with an odd length the last byte is not written.
* C105: benchmark_disks_random divides by the number of blocks of a batch, which is zero if span and batch size are zero.
* C106: benchmark_disks counts the bytes of a partial last block as requested although the whole block is transferred; batches that begin before the starting offset are skipped as a whole although part of their range was requested.
* C107: benchmark_disks calls `new_blocks` for each batch without the offset of the blocks allocated before, so every batch begins with the first disk.
* C108: in request_queue_impl_qwqr.cpp the preferred operation is the constant WRITE and the worker looks at the reads only if it finds no write, so reads starve under a steady load of writes. `set_priority_op` does nothing in both kinds of queue (qwqr.cpp:55-59, 1q.cpp:56-60), although buf_writer.hpp:88 and `disk_queues::set_priority_op` call it for that purpose.
* C109: `export_files` only logs failures of `remove` and `rename`; afterwards `truncate` silently cuts whatever file has the name. If the name is the one of the block's own file, `remove` deletes the data. The message for `rename` exchanges the names.
* C110: wfs_file_base.cpp:57-69 ignores CREAT: without TRUNC missing files are always created, with TRUNC (TRUNCATE_EXISTING) never. file.hpp:85-86 says that REQUIRE_DIRECT implies DIRECT; on Windows it is ignored without DIRECT. With FOXXLL_DIRECT_IO_OFF and both flags `open_file_impl` returns INVALID_HANDLE_VALUE instead of throwing (79). `need_alignment_` is set after the fallback to buffered mode, too (125). If `LockFile` fails the handle is leaked (the destructor does not run) and a file opened with TRUNC has lost its contents.
* C111: the local variable `bytes_per_sector_` (wfs_file_base.cpp:143) hides the member, and line 150 assigns the local variable to itself; `set_size` of a direct file then computes modulo an uninitialised member. If the member is set (GetFullPathNameA failed), `set_size` with an unaligned size closes and opens the file without locking it again, while `locked_` stays true.
* C112: wincall_file.cpp:79-81 throws for short reads, including reads over the end of the file, which syscall_file completes with zeros; `(DWORD)bytes` cuts the size of requests from 4 GiB on.
* C113: `close_remove` ignores the result of `DeleteFileA`.
* C114: `run_exit_handlers` (exithandler.cpp:66-73) holds the mutex while it calls the handlers; a handler that registers another one (a destructor that creates a singleton, singleton.hpp:79-81) locks the mutex again. `pop_back` comes after the call, so a handler that throws stays registered. The comment in line 65 calls it the default exit handler.
* C115: a failed read switches the prefetcher's switch like a successful one (block_prefetcher.hpp:40-47) and `block_prefetcher::wait` does not look at the request; the client gets the old content of the buffer, and the exception comes when the block has been consumed. The destructors of `buffered_writer` (buf_writer.hpp:209-213) and `block_prefetcher` (223-225) call `wait`, which throws if the request failed; destructors are noexcept, so the program is terminated. For the output stream this is the only way in which errors of the last blocks are reported.
* C116: `cancel` reads `file_` twice without synchronisation (request_with_state.cpp:51, 55; linuxaio_request.cpp:84-88), so a request completed at the same time gives a null pointer. `io_type` needs `file_`, which is null once the request is finished (request.cpp:94-97). `poll` (and `wait_any`) report DONE, when the worker still uses the file; only `wait` waits for READY2DIE. The comment in linuxaio_queue.cpp:258 says that `dec_reference` may delete the request; it only decrements, so requests whose last reference is the kernel's are leaked. If a queue is not running, `add_request` throws and the destructor of the request finds state OP (request_with_state.cpp:31), and the file counts the request forever. `check_nref` (request.hpp) warns of a serious error although a client may have given up its pointer (the queue's local one is enough). `poll` reads `error_` without synchronisation (71).
* C117: `linuxaio_queue::cancel_request` holds `waiting_mtx_` when `linuxaio_request::cancel_aio` completes the request (linuxaio_queue.cpp:121-136), so a handler that submits a request to this queue locks the mutex twice. `~disk_queues` (disk_queues.cpp:31-37) holds `mutex_` while the queues join their threads. The constructor of `block_manager` runs under the mutex of the singleton and waits for a request with fileperblock (fileperblock_file.cpp:81-102); handlers that use the block manager then block the worker.
* C118: the getters and constructors of `stats_data` and `file_stats_data` copy counters without locking; `memory_file::size` reads without the mutex that `set_size` locks (memory_file.cpp:59-71); `create_file` increments the device ids of the shared config without synchronisation (create_file.cpp:57-64); `singleton::get_instance` tests `instance_` (a volatile pointer, not atomic) before locking; `cancel` and `poll` read `file_` and `error_` unsynchronised.
* C119: `requested_size` and `disk_bytes_ + extend_bytes` are computed modulo 2^64 (disk_block_allocator.hpp:152-154, 166). A `BID<0>` of 2^64-4096 bytes makes `grow_file` shrink the file (to nothing, with live blocks in it) and succeeds; two of 2^63 bytes have the sum 0 and are placed over free space.
* C120: `new_blocks` splits a request for which there is no contiguous region (disk_block_allocator.hpp:253-259) and does not undo the first half if the second throws (the file cannot grow): these blocks are lost. The destructor calls `set_size` (64-69), which may throw: program termination.
* C121: `write_pool::steal` erases the entry it got from `wait_any` and then calls `check_all_busy`, whose `poll` throws if another request failed (write_pool.hpp:163-171): the block of the erased entry is lost. `prefetch_pool::hint` pops a free block before it submits the read (prefetch_pool.hpp:184-189, 222-236): it is lost if the submission throws.
* C122: the destructors of `write_pool` and `prefetch_pool` (write_pool.hpp:101-119, prefetch_pool.hpp:99-120; documented as waiting for all ongoing requests and freeing the memory) put one `try` around the whole loop: the exception of the first failed request leaves the other requests running and their blocks allocated.
* C123: a failed request stays in `busy_blocks`. With no free block and a failed first entry each `steal` throws (forever); `write` to an identifier whose hint failed throws from `invalidate` each time, after the write was submitted and the block taken (read_write_pool.hpp:108-113).
* C124: `prefetch_pool::resize` adds to `free_blocks_size` before the allocations (prefetch_pool.hpp:364-366); after `bad_alloc` `hint` and `resize` call `back()` of an empty list.
* C125 (also C20): `write_pool::write` (write_pool.hpp:131-150) relies on the order of the writes of one identifier if the cancellation of the obsolete write comes too late. `linuxaio_queue` does not order operations in flight: the obsolete data may remain on the disk, although both requests succeed. The same holds for a read made while a write of the block is pending. `linuxaio_request::completed` does not look at `io_event::res` (linuxaio_queue.cpp:253-260, linuxaio_request.cpp:26-52): errors and short transfers are reported as success.
* C126: `write_pool::write` (write_pool.hpp:134-146) cancels the pending writes to the identifier and invalidates their entries before it submits the new write. If the submission throws, the data of the older write, accepted before, are neither written nor found by a later `read` or `hint`.
* C127: `alloc_size` (aligned_alloc.hpp:59) is computed without check. For sizes near 2^64 it wraps around, `malloc` succeeds, and the call returns a block that is larger than its buffer or writes outside of it (aligned_alloc.hpp:107) instead of throwing `bad_alloc`; `new_alloc<typed_block<4096>>::max_size()` (new_alloc.hpp:82-85) promises such a size. If `realloc` returns null when shrinking (aligned_alloc.hpp:95-102) the buffer is never freed.
* C128: the constructors of the input streams compute the schedule for `max_device_id()` disks (buf_istream.hpp:71, 81-84), but only `create_file` registers ids. A file constructed with an explicit id (e.g. syscall_file.hpp:40-47), or created by `create_file` before the configuration was initialised (config.cpp:79 sets the counter back to 0, possibly in the constructor of the stream itself), fails `assert(disk <= D)` (async_schedule.cpp:68) or, without assertions, indexes `disk_queues` out of bounds. `nbuffers - 1` wraps around for `nbuffers = 0`: the stream then allocates a buffer for every block.
* C129: after `load_config_file` has thrown for a faulty line (config.cpp:160), the disks in front of it stay in `disks_list`. The next call of `initialize` sees a non-empty list, does not search for a file (config.cpp:74), and succeeds with these disks, all of them in the flash range. A file that vanishes between `exist_file` and `load_config_file` makes `load_config_file` take the default disk (config.cpp:149-150) although other files of the list exist. A `STXXLCFG` that names no existing file is ignored silently.
* C130 (also C20): with the default queue (`request_queue_impl_qwqr`), canceling a prefetch (`hint(x)`, `invalidate(x)`) while the worker is between the wait for its semaphore and the look into the queues makes it lose the order of later requests: a `write(b)`, a `read(b)` that takes the busy block back, and another `read(b)` can then deliver the old content of `b` from the disk, without any failed request. `read_write_pool` has no protection against this; with `request_queue_impl_1q` it cannot happen.
* C131: `~block_scheduler` takes `free_swappable_blocks.size() == swappable_blocks.size()` for "all blocks are deinitialized" (block_scheduler.hpp:389). In simulation mode, `free_swappable_block` pushes the identifier but does not deinitialize the block (484-490, 864-870). If everything is freed in the simulation and the scheduler is destroyed then, the external blocks of blocks that are not in memory stay allocated.
* C132: `free_swappable_block` in simulation mode changes the real list of free identifiers. If the simulation frees a block from before and the calls are made again, as the documentation of the scheduler suggests (block_scheduler.hpp:258-263), the second run is given identifiers the client still has, with their data; freeing the block again puts its identifier into the list twice, so that two allocations give the same block.
* C133: `clean_async` (block_scheduler.hpp:172-184) resets `dirty` before the write has been waited for. If the write fails (at an eviction inside the `acquire` of another block, in `extract_external_block`, in `flush`), the exception goes to whoever made that call, while the block counts as written: its next eviction drops the data, a second `extract_external_block` returns an external block that was never written. `acquire` attaches the internal block before the read (693-699); if the read fails, the next `acquire` finds the block internal and returns what the failed read left.
* C133, C134: `flush` (block_scheduler.hpp:519-535) waits for its requests one after the other; the first that fails (or a `bad_ext_alloc` in the first loop) leaves the function, and the other writes stay in flight although their internal blocks have been put into the list of free blocks (528). The next `acquire` reuses them, so that data of another block are written; the destructor deallocates them.
* C134: `get_free_internal_block` (block_scheduler.hpp:346-352) lowers `remaining_internal_blocks` before `new`; after a `bad_alloc` up to 128 internal blocks are never allocated. `get_free_internal_block` of the algorithms (635-637, 973-975) takes the victim out of the evictable blocks before it is written; after a failure it stays internal, is not evictable, and a later `acquire` fails the assertion (636, 974) although nothing is acquired.
* C135: when a request fails, `wait_all` throws at this request (request_operations.hpp:33-37) and the later requests of the batch are still in flight; `benchmark_disks` (benchmark_disks.cpp:232-235, 259-262), `benchmark_disks_random` (214-220) and `benchmark_files` (414-417, 458) then free the buffers. This is the documented way to run them until the disk is full (benchmark_disks.cpp:318-319, benchmark_files.cpp:182-183). `benchmark_disks_random` reads all blocks of a batch into one buffer at the same time.
* C136: `foxxll_tool` with an unknown subtool returns 0 (foxxll_tool.cpp:138-141), and so do the benchmarks after an exception. `benchmark_disks_random` prints the batch size in bytes as a number of blocks (benchmark_disks_random.cpp:108).
* C137: `FOXXLL_VERSION_INTEGER` (version.hpp:28) is the same for 1.4.100 and 1.5.0; the current version is 1.4.99 (CMakeLists.txt:38-40).
* C140: `block_manager::delete_block` discards the region at once (block_manager.hpp:265), also if requests for the block are in flight. A read then returns uninitialised memory with `memory_file` (memory_file.cpp:73-93) and zeros with `fileperblock_file`, although with `syscall_file` it returns the data. With `fileperblock_file` the requests also make the removed file again (fileperblock_file.cpp:75-78); it stays until the block's offset is used and deleted again.
* C140: `mmap_file::serve` maps at the offset of the block (mmap_file.cpp:36); offsets that are no multiples of the page size fail, though blocks of other sizes can be allocated.
* C141: `queues_[id] = new request_queue_impl_qwqr(…)` (disk_queues.cpp:53, 57, 74, 79) may insert the null pointer before the constructor runs (unspecified up to C++14, which CMakeLists.txt:210-213 chooses). If the constructor throws, `make_queue` finds the entry the next time and returns (disk_queues.cpp:45-47), and the first request uses the null pointer.
* C141: the constructor of `linuxaio_queue` does not call `io_destroy` when a thread cannot be started (linuxaio_queue.cpp:49-66), and when it is the second thread, `post_thread_` is destroyed joinable, which is `std::terminate`.
* C138: a block with external data that is acquired uninitialized and released not dirty has the content of the internal memory at the next acquire and the old content after an eviction (as C51).
* C139: when the disks are full, one scheduler can take the block that another one would have got.
* C142: `set_switch_handler` sets the switch for failed reads too (block_prefetcher.hpp:41-48 does not look at `success`), and `block_prefetcher::wait` looks at the switch only (87-98). So `operator *` delivers the content of a buffer whose read failed; the exception is thrown by `block_consumed` (176-177) after the last element of the block. The stream stays at this block then, and delivers it again from its first element.
* C142: `~block_prefetcher` waits for all requests; if one of them failed, `wait` throws in the destructor, which is `std::terminate`, even if the client has not reached the failed block.
* C143: `~buffered_writer` waits for all requests (buf_writer.hpp:197-213); if a write failed, `wait` throws and the program is terminated. As the failed request stays in `busy_write_blocks`, `flush` throws each time too, so there is no way to destroy a writer after a failed write.
* C143: if `write` throws, its block was already put into the batch (buf_writer.hpp:159-161), but `buf_ostream` keeps `current_blk` and has advanced `current_bid` (buf_ostream.hpp:71-72): the next elements overwrite the block before it is written, and it is submitted twice.
* C143: `wait_any` in `get_free_block` (buf_writer.hpp:120) leaves the array `reqs` allocated and its switch registered when it throws.
* C144: the speed is computed by dividing by the elapsed time, whose resolution is a microsecond (timer.hpp:36-42, 255, iostats.cpp:822); 0 gives an infinity and `static_cast<uint64_t>` of it is undefined. `scoped_print_iostats` has an implicit copy constructor, so that a copy reports again.
* C145: `regular_disk_range`, `flash_range`, `disk_path`, `disk_size`, `disk_io_impl` and `total_size` only assert `is_initialized` (config.cpp:207, 213, 228, 263, 269, 275), while `disks_number` and `disk` initialise; config.hpp:149-150 says that `check_initialized` need not be called by the user. `const disk_config& disk(size_t) const` (config.hpp:217) is not defined.
* C146: `initialize` sets `first_flash` to 0 also if disks have been added (config.cpp:71-76), so that `random_cyclic_disk()` (block_alloc_strategy.hpp:167-170) gets an empty range and computes `% 0`; `random_cyclic_flash()` does so whenever there is no flash disk.
* C147: `~block_scheduler` skips acquired blocks (block_scheduler.hpp:397) and then deletes their internal blocks; their external blocks are never passed to `delete_block`. The message (404) speaks of internal blocks only.
* C149: constructors of the pools (write_pool.hpp:72-79, prefetch_pool.hpp:81-87) allocate blocks into a list of plain pointers; if one allocation fails the list is destroyed, but not the blocks.
* C149: `write_pool::write` submits the request before it allocates the list node (write_pool.hpp:146-147); if that fails, the caller keeps the block and has no request to wait for, while the data is being written.
* C149: `prefetch_pool::resize`, `invalidate` and `read` change `free_blocks_size` before they allocate (prefetch_pool.hpp:256-257, 329-330, 364-366); after an exception the counter is too large, and `hint` may call `back()` of an empty list.
* C149: `write_pool::steal` collects completed blocks 'for debug' (write_pool.hpp:170); if that throws, the block found is lost.
* C151: the message 'serious error, reference to the request is lost' (request.cpp:58) is printed for every request whose client dropped its pointer early; the worker's own pointer keeps the request (request_queue_impl_1q.cpp:134-140), nothing is lost.
* C152: `block_allocators_` holds plain pointers (block_manager.hpp:143); if the constructor of `block_manager` throws, the allocators made so far are leaked.
* C152: `grow_file(0)` returns before `set_size` (disk_block_allocator.hpp:149-150), so a disk of configured size 0 on an existing longer file keeps the old length; comment 'reduce to original size' (hpp:66) does not hold for it.
* C152: `~disk_block_allocator` calls `set_size`, which may throw out of the destructor (disk_block_allocator.hpp:64-69).
* C153: the constructor of `buffered_writer` (buf_writer.hpp:76-89) accepts batch sizes that are not smaller than the number of buffers, with which `get_free_block` waits for ever (as C18), with or without failures.
* C154: `SWITCH` (tmeta.hpp:38-55) takes the first case that has the tag or DEFAULT, so DEFAULT must come last; nothing says so.
* C155: `swap_1D_arrays` (utils.hpp:88-93) does not exchange arrays that overlap; `atoi64`/`atouint64` (utils.hpp:43-59) do not report texts that are no numbers, and `atoll` is undefined for values that do not fit.
* C157: the batch loop of `write` and of `flush` takes an entry out of the batch before it waits for the previous request of the block (buf_writer.hpp:142-153, 167-178); if that request failed, the exception loses the entry (`C157_dropped`).
