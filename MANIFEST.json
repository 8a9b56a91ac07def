{
 "claims": [
  {
   "property": "C01",
   "status": "proved",
   "theorems": [
    "Foxxll.Alloc.C01_live_blocks_disjoint",
    "Foxxll.Alloc.C01_partition"
   ],
   "note": "All histories of valid allocate/free calls from a fresh disk; byte-level partition into free space and live blocks."
  },
  {
   "property": "C02",
   "status": "proved",
   "theorems": [
    "Foxxll.Alloc.C02_accounting"
   ],
   "note": "All reachable states."
  },
  {
   "property": "C03",
   "status": "proved",
   "theorems": [
    "Foxxll.Alloc.C03_coalesced",
    "Foxxll.Alloc.C03_all_freed",
    "Foxxll.Alloc.C03_empty_disk_serves"
   ],
   "note": "Free list is canonical; freeing everything in any order restores a single region."
  },
  {
   "property": "C04",
   "status": "proved",
   "theorems": [
    "Foxxll.Alloc.C04_double_free_rejected",
    "Foxxll.Alloc.C04_second_free_rejected",
    "Foxxll.Alloc.C04_accepts_iff"
   ],
   "note": "A free of positive size is accepted iff it touches no free byte."
  },
  {
   "property": "C05",
   "status": "proved",
   "theorems": [
    "Foxxll.Alloc.C05_alloc_iff"
   ],
   "note": "Requests are non-empty lists of positive sizes."
  },
  {
   "property": "C06",
   "status": "partial",
   "theorems": [
    "Foxxll.Alloc.C06_false",
    "Foxxll.Alloc.C06_no_growth_partial"
   ],
   "note": "False of the code: a fragmented disk without autogrow grows (disk_block_allocator.hpp:206-217); negation proved. Partial: holds when all blocks have one size dividing the configured size."
  },
  {
   "property": "C07",
   "status": "proved",
   "theorems": [
    "Foxxll.Mgr.C07_live_disjoint",
    "Foxxll.Mgr.C07_complete"
   ],
   "note": "All histories of allocate/delete calls over any number of disks."
  },
  {
   "property": "C08",
   "status": "proved",
   "theorems": [
    "Foxxll.Mgr.C08_placement"
   ],
   "note": "Exact placement rule: preferred disk if it has room, otherwise next disk cyclically with room, otherwise preferred disk."
  },
  {
   "property": "C09",
   "status": "partial",
   "theorems": [
    "Foxxll.Mgr.C09_false",
    "Foxxll.Mgr.C09_statistics_partial"
   ],
   "note": "False for BID<0>: delete_block subtracts the template parameter 0 (block_manager.hpp:267); negation proved. Partial: holds when every block has the compile-time size and no allocation throws."
  },
  {
   "property": "C10",
   "status": "partial",
   "theorems": [
    "Foxxll.Mgr.C10_false",
    "Foxxll.Mgr.C10_fails_only_if_partial",
    "Foxxll.Mgr.C10_no_leak_partial"
   ],
   "note": "False: a failure on a later disk keeps blocks of earlier disks allocated (block_manager.hpp:221-245); negation proved. Partial: when failures are possible, and no leak if a single disk is involved."
  },
  {
   "property": "C100",
   "status": "partial",
   "theorems": [
    "Foxxll.Summary.C100_false",
    "Foxxll.Summary.C100_false_writing",
    "Foxxll.Summary.C100_partial",
    "Foxxll.Summary.C100_load"
   ],
   "note": "False for slow disks: devices are judged by their share of the data, not by their speed, and one device is always named in both directions; negation proved. What is reported is characterized exactly; load balancing as claimed. Doubles without rounding."
  },
  {
   "property": "C101",
   "status": "partial",
   "theorems": [
    "Foxxll.Sched.C101_false",
    "Foxxll.Sched.C101_false_short",
    "Foxxll.Sched.C101_optimum",
    "Foxxll.Sched.C101_load",
    "Foxxll.Sched.C101_steps",
    "Foxxll.Sched.C101_partial",
    "Foxxll.Sched.C101_all_buffered",
    "Foxxll.Sched.C101_one_disk"
   ],
   "note": "False: the simulation loses buffers, and short sequences are not scheduled at all; negations proved. Partial: the optimum is characterized (queued writing of the reversed sequence); the schedule keeps the number of steps of its simulation and is as good as any order with as many buffers as the simulation keeps in use; optimal with all blocks buffered or on one disk."
  },
  {
   "property": "C102",
   "status": "partial",
   "theorems": [
    "Foxxll.FileBench.C102_false_far",
    "Foxxll.FileBench.C102_false_sector",
    "Foxxll.FileBench.C102_false_hidden",
    "Foxxll.FileBench.C102_false_again",
    "Foxxll.FileBench.C102_false_skipped",
    "Foxxll.FileBench.C102_partial",
    "Foxxll.FileBench.C102_detects_partial",
    "Foxxll.FileBench.C102_content",
    "Foxxll.FileBench.C102_verify",
    "Foxxll.FileBench.C102_later_partial",
    "Foxxll.FileBench.C102_reports_partial"
   ],
   "note": "False beyond 2 TiB, for steps that end behind the number of a sector, after an error, and for reports of several files; negations proved. Partial: steps without such a sector, up to 2 TiB. Block sizes are multiples of 4; I/O does not throw."
  },
  {
   "property": "C103",
   "status": "partial",
   "theorems": [
    "Foxxll.FileBench.C103_false",
    "Foxxll.FileBench.C103_partial"
   ],
   "note": "False: what is left over from the last whole step is not processed; negation proved. Partial: all whole steps are, nothing else is changed."
  },
  {
   "property": "C104",
   "status": "partial",
   "theorems": [
    "Foxxll.FileBench.C104_false",
    "Foxxll.FileBench.C104_partial"
   ],
   "note": "False for odd lengths; negation proved. Partial: all bytes except the last one of an odd length. I/O does not throw."
  },
  {
   "property": "C105",
   "status": "partial",
   "theorems": [
    "Foxxll.DiskBench.C105_false",
    "Foxxll.DiskBench.C105_partial"
   ],
   "note": "False for an empty span (division by zero); negation proved. Partial: nonempty spans and blocks of at most 128 MiB. The shuffled sequence of blocks is taken as it is (std::shuffle permutes)."
  },
  {
   "property": "C106",
   "status": "partial",
   "theorems": [
    "Foxxll.DiskBench.C106_false",
    "Foxxll.DiskBench.C106_false_offset",
    "Foxxll.DiskBench.C106_partial"
   ],
   "note": "False: the last block is transferred as a whole and reported in part, and starting offsets that are not multiples of the batch are rounded up; negations proved. Partial: exact amounts. No time limit, size greater than zero."
  },
  {
   "property": "C107",
   "status": "partial",
   "theorems": [
    "Foxxll.DiskBench.C107_false",
    "Foxxll.DiskBench.C107_partial"
   ],
   "note": "False: the strategy starts anew with each batch; negation proved. Partial: batches that are multiples of the number of disks."
  },
  {
   "property": "C108",
   "status": "partial",
   "theorems": [
    "Foxxll.Queue.C108_false",
    "Foxxll.Queue.C108_partial",
    "Foxxll.Queue.C108_one_partial"
   ],
   "note": "False for reads in the default kind of queue, which prefers writes: any number of writes overtakes; negation proved. Partial: writes (at most one later request first) and the single queue (none)."
  },
  {
   "property": "C109",
   "status": "partial",
   "theorems": [
    "Foxxll.Files.C109_false",
    "Foxxll.Files.C109_false_self",
    "Foxxll.Files.C109_partial",
    "Foxxll.Files.C109_place"
   ],
   "note": "False if remove and rename fail (only logged) and if the name is the one of the block itself; negations proved. Partial: otherwise. POSIX branch."
  },
  {
   "property": "C11",
   "status": "proved",
   "theorems": [
    "Foxxll.Strategy.C11_in_range",
    "Foxxll.Strategy.C11_offset"
   ],
   "note": "All strategies; random draws and permutations are arbitrary parameters."
  },
  {
   "property": "C110",
   "status": "partial",
   "theorems": [
    "Foxxll.Win.C110_false_missing",
    "Foxxll.Win.C110_false_creat",
    "Foxxll.Win.C110_false_require",
    "Foxxll.Win.C110_false_invalid",
    "Foxxll.Win.C110_false_align",
    "Foxxll.Win.C110_false_leak",
    "Foxxll.Win.C110_partial",
    "Foxxll.Win.C110_returns_partial",
    "Foxxll.Win.C110_throws_partial"
   ],
   "note": "False: CREAT is ignored, TRUNC needs an existing file, REQUIRE_DIRECT does not imply DIRECT, objects without file, need_alignment of buffered files, open handle after failed lock; negations proved. Partial: access rights, contents, lock, direct mode if DIRECT is given; when the constructor returns and what it leaves if it throws."
  },
  {
   "property": "C111",
   "status": "partial",
   "theorems": [
    "Foxxll.Win.C111_false",
    "Foxxll.Win.C111_false_lock",
    "Foxxll.Win.C111_false_closed",
    "Foxxll.Win.C111_partial",
    "Foxxll.Win.C111_throws_partial"
   ],
   "note": "False for DIRECT: the sector size is never set (undefined behaviour), the lock gets lost, a failure leaves the object without file; negations proved. Partial: size and contents whenever it returns; all for files without DIRECT."
  },
  {
   "property": "C112",
   "status": "partial",
   "theorems": [
    "Foxxll.Win.C112_false",
    "Foxxll.Win.C112_false_large",
    "Foxxll.Win.C112_read_partial",
    "Foxxll.Win.C112_write_partial",
    "Foxxll.Win.C112_roundtrip",
    "Foxxll.Win.C112_returns_partial"
   ],
   "note": "False: reads over the end throw, requests from 4 GiB on do not work; negations proved. Partial: everything else."
  },
  {
   "property": "C113",
   "status": "partial",
   "theorems": [
    "Foxxll.Win.C113_false",
    "Foxxll.Win.C113_partial"
   ],
   "note": "False: failures of DeleteFileA are ignored; negation proved. Partial: otherwise gone; nothing lost on exceptions."
  },
  {
   "property": "C114",
   "status": "partial",
   "theorems": [
    "Foxxll.Exit.C114_false",
    "Foxxll.Exit.C114_false_throw",
    "Foxxll.Exit.C114_partial",
    "Foxxll.Exit.C114_once_partial",
    "Foxxll.Exit.C114_progress_partial",
    "Foxxll.Exit.C114_run_partial"
   ],
   "note": "False if a handler registers another one (deadlock) or throws (called again); negations proved. Partial: handlers that do neither, any number of threads."
  },
  {
   "property": "C115",
   "status": "partial",
   "theorems": [
    "Foxxll.E2E.C115_false",
    "Foxxll.E2E.C115_output",
    "Foxxll.E2E.C115_input_partial",
    "Foxxll.E2E.C115_partial"
   ],
   "note": "False: elements of a block whose read failed are delivered before the error is reported; negation proved. Partial: output; input without failed reads; with failed reads all but the last block delivered; complete streams."
  },
  {
   "property": "C116",
   "status": "partial",
   "theorems": [
    "Foxxll.Life.C116_false",
    "Foxxll.Life.C116_false_type",
    "Foxxll.Life.C116_false_poll",
    "Foxxll.Life.C116_false_refused",
    "Foxxll.Life.C116_false_leak",
    "Foxxll.Life.C116_partial",
    "Foxxll.Life.C116_alive",
    "Foxxll.Life.C116_destroyed",
    "Foxxll.Life.C116_file"
   ],
   "note": "False: cancel races with completion (null pointer), io_type of finished requests, files deleted after poll, stopped queues, leak of linuxaio requests; negations proved. Partial: no other failure in any interleaving, exact reference counts. counting_ptr of tlx by its documented meaning."
  },
  {
   "property": "C117",
   "status": "partial",
   "theorems": [
    "Foxxll.Locks.C117_false",
    "Foxxll.Locks.C117_false_destructor",
    "Foxxll.Locks.C117_false_manager",
    "Foxxll.Locks.C117_false_cancel",
    "Foxxll.Locks.C117_partial",
    "Foxxll.Locks.C117_cycle_partial"
   ],
   "note": "False: linuxaio cancellation and the destructor of disk_queues call or await handlers with a mutex locked, the constructor of the block manager waits for a request, cancellation for a token; negations proved. Partial: everything else, any number of threads."
  },
  {
   "property": "C118",
   "status": "partial",
   "theorems": [
    "Foxxll.Locks.C118_false",
    "Foxxll.Locks.C118_false_file",
    "Foxxll.Locks.C118_false_error",
    "Foxxll.Locks.C118_false_singleton",
    "Foxxll.Locks.C118_false_device",
    "Foxxll.Locks.C118_false_memory",
    "Foxxll.Locks.C118_partial",
    "Foxxll.Locks.C118_write_partial"
   ],
   "note": "False for snapshots of statistics, file_ and error_ of requests, pointers of singletons, device ids, memory_file::size; negations proved. Partial: all other data are accessed by one thread at a time; writes exclude each other. Accesses are atomic steps (the interleaving in which a race shows up, not what it does)."
  },
  {
   "property": "C119",
   "status": "partial",
   "theorems": [
    "Foxxll.Alloc64.C119_false",
    "Foxxll.Alloc64.C119_overlap_false",
    "Foxxll.Alloc64.C119_live_blocks_partial",
    "Foxxll.Alloc64.C119_agrees_partial",
    "Foxxll.Alloc64.C119_free_partial"
   ],
   "note": "False: requested_size and disk_bytes_ wrap modulo 2^64; negations proved. Partial: everything if disk size plus requested bytes stay below 2^64, with a file that may refuse to be resized."
  },
  {
   "property": "C12",
   "status": "proved",
   "theorems": [
    "Foxxll.Strategy.C12_balanced"
   ],
   "note": "Any window of D consecutive indices, any run of the interleaved variants."
  },
  {
   "property": "C120",
   "status": "partial",
   "theorems": [
    "Foxxll.Alloc64.C120_false",
    "Foxxll.Alloc64.C120_uniform_partial",
    "Foxxll.Alloc64.C120_only_io_partial",
    "Foxxll.Alloc64.C120_destructor_partial"
   ],
   "note": "False: a split request whose second half cannot enlarge the file loses the blocks of the first half; negation proved. Partial: one block size; otherwise only io_error loses blocks, and at most a proper prefix of the request."
  },
  {
   "property": "C121",
   "status": "partial",
   "theorems": [
    "Foxxll.PoolFail.C121_false",
    "Foxxll.PoolFail.C121_hint_false",
    "Foxxll.PoolFail.C121_partial",
    "Foxxll.PoolFail.C121_lost_partial",
    "Foxxll.PoolFail.C121_clean_partial",
    "Foxxll.PoolFail.C121_agree",
    "Foxxll.PoolFail.C121_agree_write",
    "Foxxll.PoolFail.C121_agree_invalidate",
    "Foxxll.PoolFail.C121_agree_steal",
    "Foxxll.PoolFail.C121_agree_init",
    "Foxxll.PoolFail.C121_agree_sleep",
    "Foxxll.PoolFail.C121_agree_resize"
   ],
   "note": "False: steal and hint take a block out of their lists before a call that may throw; negations proved. Partial: nothing is in two places or touched during a transfer, calls that return lose nothing, a call that throws at most one block; nothing is lost without failed requests and submissions. Also: without failures this model and that of C13 to C19 agree."
  },
  {
   "property": "C122",
   "status": "partial",
   "theorems": [
    "Foxxll.PoolFail.C122_false",
    "Foxxll.PoolFail.C122_partial",
    "Foxxll.PoolFail.C122_end_partial"
   ],
   "note": "False: the first failed request ends the loop, later ones are not waited for and their blocks leak; negation proved. Partial: all waited for and freed if no request of the pools failed; no exception; termination once the requests are served."
  },
  {
   "property": "C123",
   "status": "partial",
   "theorems": [
    "Foxxll.PoolFail.C123_false",
    "Foxxll.PoolFail.C123_steal_false",
    "Foxxll.PoolFail.C123_write_false",
    "Foxxll.PoolFail.C123_reason_partial",
    "Foxxll.PoolFail.C123_read_partial"
   ],
   "note": "False: failed requests stay in the pools and let steal, and write to the same identifier, throw each time; negations proved (also in general). Partial: steal throws only for failed requests when no block is free; read removes a failed entry."
  },
  {
   "property": "C124",
   "status": "partial",
   "theorems": [
    "Foxxll.PoolFail.C124_false",
    "Foxxll.PoolFail.C124_partial"
   ],
   "note": "False: resize raises the counter before it allocates; negation proved. Partial: never smaller than the list; equal, and no undefined behaviour, if the allocations of resize succeed."
  },
  {
   "property": "C125",
   "status": "partial",
   "theorems": [
    "Foxxll.AioStore.C125_false",
    "Foxxll.AioStore.C125_order_false",
    "Foxxll.AioStore.C125_overtake_false",
    "Foxxll.AioStore.C125_partial",
    "Foxxll.AioStore.C125_file_partial",
    "Foxxll.AioStore.C125_size",
    "Foxxll.AioStore.C125_size_kernel_partial"
   ],
   "note": "False: errors and short transfers reported by the kernel are completed as success; two writes of a block, or a write and a read, in flight at the same time are not ordered; negations proved. Partial: clients that wait for conflicting requests, operations without error of the kernel, no confirmed cancellations."
  },
  {
   "property": "C126",
   "status": "partial",
   "theorems": [
    "Foxxll.PoolFail.C126_false",
    "Foxxll.PoolFail.C126_partial",
    "Foxxll.PoolFail.C126_cancel_partial"
   ],
   "note": "False: a write whose submission throws has already cancelled the older write to the identifier; negation proved. Partial: writes that return; requests are cancelled only by calls that make them obsolete, in all histories."
  },
  {
   "property": "C127",
   "status": "partial",
   "theorems": [
    "Foxxll.AlignedHeap.C127_false",
    "Foxxll.AlignedHeap.C127_new_alloc_false",
    "Foxxll.AlignedHeap.C127_leak_false",
    "Foxxll.AlignedHeap.C127_partial",
    "Foxxll.AlignedHeap.C127_dealloc_partial",
    "Foxxll.AlignedHeap.C127_leak_partial",
    "Foxxll.AlignedHeap.C127_new_alloc_partial",
    "Foxxll.AlignedHeap.C127_new_array_partial",
    "Foxxll.AlignedHeap.C127_agree"
   ],
   "note": "False: alloc_size wraps around for sizes near 2^64, also within max_size() of new_alloc; a failing realloc leaks the buffer; negations proved. Partial: all programs whose sizes do not add up to 2^64; nothing lost if realloc does not fail."
  },
  {
   "property": "C128",
   "status": "partial",
   "theorems": [
    "Foxxll.StreamOpen.C128_false",
    "Foxxll.StreamOpen.C128_early_false",
    "Foxxll.StreamOpen.C128_buffers_false",
    "Foxxll.StreamOpen.C128_partial"
   ],
   "note": "False: files with an explicit device id not made by create_file, files made before the configuration is initialised, and nbuffers = 0; negations proved. Partial: all streams over blocks of files made by create_file after the initialisation, or without device id; no spurious wake-ups."
  },
  {
   "property": "C129",
   "status": "partial",
   "theorems": [
    "Foxxll.Config.C129_false",
    "Foxxll.Config.C129_race_false",
    "Foxxll.Config.C129_partial",
    "Foxxll.Config.C129_lines",
    "Foxxll.Config.C129_total",
    "Foxxll.Config.C129_again"
   ],
   "note": "False: after an exception for a faulty line the next call uses the disks in front of it; a file that vanishes during the search; negations proved. Partial: first call, files that do not change during the search; POSIX branch."
  },
  {
   "property": "C13",
   "status": "proved",
   "theorems": [
    "Foxxll.Sched.C13_permutation"
   ],
   "note": "Every tie-breaking of the event queue and every initial content of the uninitialised disk_busy array."
  },
  {
   "property": "C130",
   "status": "partial",
   "theorems": [
    "Foxxll.PoolStore.C130_false",
    "Foxxll.PoolStore.C130_partial",
    "Foxxll.PoolStore.C130_single",
    "Foxxll.PoolStore.C130_history",
    "Foxxll.PoolStore.C130_start",
    "Foxxll.PoolStore.C130_disk_partial",
    "Foxxll.PoolStore.C130_refines"
   ],
   "note": "False with separate queues for reads and writes (default): after the cancellation of a prefetch the worker serves a read before an earlier write of the block; negation proved. Partial: holds for a single queue without conditions, and for separate queues if what would be canceled is finished and no prefetch of a block is under way when it is written; failed requests excluded."
  },
  {
   "property": "C131",
   "status": "partial",
   "theorems": [
    "Foxxll.Swap.C131_false",
    "Foxxll.Swap.C131_partial",
    "Foxxll.Swap.C131_sim_partial",
    "Foxxll.Ahead.C131_prefetch"
   ],
   "note": "False: in simulation mode with all identifiers freed, external blocks leak; negation proved. Partial: all other cases, with every algorithm."
  },
  {
   "property": "C132",
   "status": "partial",
   "theorems": [
    "Foxxll.Swap.C132_false",
    "Foxxll.Swap.C132_twice_false",
    "Foxxll.Swap.C132_partial",
    "Foxxll.Swap.C132_lfd_partial",
    "Foxxll.Swap.C132_smallest",
    "Foxxll.Swap.C132_blank",
    "Foxxll.Swap.C132_fresh",
    "Foxxll.Ahead.C132_prefetch_partial"
   ],
   "note": "False if the simulation frees a block from before: identifiers differ, are given out twice, and the blocks have data; negations proved. Partial: simulations at whose end the client has the identifiers it had at the start, followed by online_lru, offline_lfd or offline_lru_prefetching."
  },
  {
   "property": "C133",
   "status": "partial",
   "theorems": [
    "Foxxll.SwapFail.C133_false_read",
    "Foxxll.SwapFail.C133_false_write",
    "Foxxll.SwapFail.C133_false_extract",
    "Foxxll.SwapFail.C133_false_flush",
    "Foxxll.SwapFail.C133_partial",
    "Foxxll.SwapFail.C133_external",
    "Foxxll.SwapFail.C133_hit",
    "Foxxll.SwapFail.C133_memory",
    "Foxxll.SwapFail.C133_agree"
   ],
   "note": "False: after a failed read the next acquire returns undefined data; after a failed write at eviction, extraction or flush the block counts as written and its data are lost silently; after a flush that throws, data of other blocks are written to it; negations proved. Partial: all histories with all failures, where the data of blocks whose request failed or was not waited for are not known until they are released dirty; failures of memory alone do no harm. Algorithms online_lru and offline_lfd."
  },
  {
   "property": "C134",
   "status": "partial",
   "theorems": [
    "Foxxll.SwapFail.C134_false_stuck",
    "Foxxll.SwapFail.C134_false_space",
    "Foxxll.SwapFail.C134_false_alloc",
    "Foxxll.SwapFail.C134_false_flush",
    "Foxxll.SwapFail.C134_partial",
    "Foxxll.SwapFail.C134_progress",
    "Foxxll.SwapFail.C134_recover",
    "Foxxll.SwapFail.C134_flight",
    "Foxxll.SwapFail.C134_served"
   ],
   "note": "False: internal blocks stay with a block that is neither acquired nor evictable after a failed eviction; up to 128 are lost when new fails; after a flush that throws, requests in flight use free blocks; negations proved. Partial: no block in two places, never more than computed, exact condition for the assertion, deinitialize recovers a stuck block, only flush leaves requests in flight."
  },
  {
   "property": "C135",
   "status": "partial",
   "theorems": [
    "Foxxll.Tools.C135_false_freed",
    "Foxxll.Tools.C135_false_shared",
    "Foxxll.Tools.C135_partial",
    "Foxxll.Tools.C135_after",
    "Foxxll.Tools.C135_create",
    "Foxxll.Tools.C135_apart",
    "Foxxll.Tools.C135_batch"
   ],
   "note": "False: after a failed request benchmark_disks, benchmark_disks_random and benchmark_files free their buffers while later requests of the batch are in flight; benchmark_disks_random uses one buffer for all requests of a batch; negations proved. Partial: runs in which nothing fails; what is in flight after a failure; create_files in all cases; buffers of their own are never shared."
  },
  {
   "property": "C136",
   "status": "partial",
   "theorems": [
    "Foxxll.Tools.C136_false_unknown",
    "Foxxll.Tools.C136_false_error",
    "Foxxll.Tools.C136_partial",
    "Foxxll.Tools.C136_called",
    "Foxxll.Tools.C136_reported"
   ],
   "note": "False: unknown subtools and benchmarks ended by an exception return 0; negations proved. Partial: choice of the subtool, its arguments and its exit code, errors that are reported."
  },
  {
   "property": "C137",
   "status": "partial",
   "theorems": [
    "Foxxll.Tools.C137_false",
    "Foxxll.Tools.C137_partial",
    "Foxxll.Tools.C137_check"
   ],
   "note": "False: integer version numbers collide beyond 99 (1.4.100 and 1.5.0); negation proved. Partial: components below 100; the check of library against headers is exact."
  },
  {
   "property": "C138",
   "status": "partial",
   "theorems": [
    "Foxxll.SwapStore.C138_false",
    "Foxxll.SwapStore.C138_partial",
    "Foxxll.SwapStore.C138_work",
    "Foxxll.SwapStore.C138_data",
    "Foxxll.SwapStore.C138_external",
    "Foxxll.SwapStore.C138_rules",
    "Foxxll.SwapStore.C138_blocks",
    "Foxxll.SwapStore.C138_calls",
    "Foxxll.SwapStore.C138_end",
    "Foxxll.SwapStore.C138_steps",
    "Foxxll.SwapStore.C138_throws"
   ],
   "note": "False for a block with external data that is acquired uninitialized and released not dirty (as C51); negation proved. Partial: clients that release such a block dirty; runs up to the first exception (failed request, no space), one calling thread, online_lru, simulation and offline_lfd (not the prefetching algorithm); clients keep the rules of the scheduler, other clients leave its blocks and buffers alone."
  },
  {
   "property": "C139",
   "status": "partial",
   "theorems": [
    "Foxxll.SwapStore.C139_false",
    "Foxxll.SwapStore.C139_partial",
    "Foxxll.SwapStore.C139_run",
    "Foxxll.SwapStore.C139_apart",
    "Foxxll.SwapStore.C139_end"
   ],
   "note": "False when the disks are full: one scheduler gets the last block and the other an exception that it would not get alone; negation proved. Partial: as C138 (runs up to the first exception of each scheduler; not the prefetching algorithm); any number of schedulers and of other clients. Schedulers are not destroyed in the model."
  },
  {
   "property": "C14",
   "status": "proved",
   "theorems": [
    "Foxxll.Sched.C14_few_later_before",
    "Foxxll.Sched.C14_position"
   ],
   "note": ""
  },
  {
   "property": "C140",
   "status": "partial",
   "theorems": [
    "Foxxll.DStore.C140_false",
    "Foxxll.DStore.C140_partial",
    "Foxxll.DStore.C140_wait_partial",
    "Foxxll.DStore.C140_disk_partial",
    "Foxxll.DStore.C140_defined",
    "Foxxll.DStore.C140_record",
    "Foxxll.DStore.C140_errors",
    "Foxxll.DStore.C140_keep",
    "Foxxll.DStore.C140_gone_false",
    "Foxxll.DStore.C140_gone_partial"
   ],
   "note": "False: a read pending when its block is deleted returns uninitialised memory (memory_file) or zeros (fileperblock), where syscall_file returns the data; a write pending at deletion makes the file of the block again; mmap fails at offsets that are no multiples of the page size; negations proved. Partial: no deletion with pending reads (for files: with pending requests), no cancellation in the default queue unless reads are submitted when no write of the block is pending; memory is granted, set_size does not fail, one file per block with syscall_file only."
  },
  {
   "property": "C141",
   "status": "partial",
   "theorems": [
    "Foxxll.QSetup.C141_false",
    "Foxxll.QSetup.C141_lost_false",
    "Foxxll.QSetup.C141_partial",
    "Foxxll.QSetup.C141_ub_partial",
    "Foxxll.QSetup.C141_null",
    "Foxxll.QSetup.C141_forever",
    "Foxxll.QSetup.C141_manager",
    "Foxxll.QSetup.C141_manager_partial",
    "Foxxll.QSetup.C141_when"
   ],
   "note": "False: if the entry of the map is evaluated before the new queue (permitted up to C++14), a failed creation leaves a null pointer that later requests use; in any order a linuxaio_queue loses its I/O context or terminates the program when its threads cannot be started; negations proved. Partial: the queue is evaluated first and the program is not terminated. The exact set of null pointers in the other order is proved as well."
  },
  {
   "property": "C142",
   "status": "partial",
   "theorems": [
    "Foxxll.StreamFail.C142_false",
    "Foxxll.StreamFail.C142_again_false",
    "Foxxll.StreamFail.C142_destroy_false",
    "Foxxll.StreamFail.C142_partial",
    "Foxxll.StreamFail.C142_throws",
    "Foxxll.StreamFail.C142_stuck",
    "Foxxll.StreamFail.C142_destroy",
    "Foxxll.StreamFail.C142_end"
   ],
   "note": "False: the prefetcher waits for the switch only, which is also set for a failed read, so that the elements of the failed block are delivered before any exception; after the exception the stream delivers the same wrong block again, with an exception at each end; the destructor terminates the program if one of the prefetched reads failed; negations proved. Partial: the blocks left behind are right, exactly when exceptions occur and when the destructor terminates. Submission of requests does not throw; no spurious wake-ups."
  },
  {
   "property": "C143",
   "status": "partial",
   "theorems": [
    "Foxxll.WriterFail.C143_false",
    "Foxxll.WriterFail.C143_ub_false",
    "Foxxll.WriterFail.C143_stream_false",
    "Foxxll.WriterFail.C143_partial",
    "Foxxll.WriterFail.C143_flush",
    "Foxxll.WriterFail.C143_forever",
    "Foxxll.WriterFail.C143_soon",
    "Foxxll.WriterFail.C143_before",
    "Foxxll.WriterFail.C143_stream_partial",
    "Foxxll.WriterFail.C143_stream_before"
   ],
   "note": "False: after a failed write the destructor terminates the program; an exception out of wait_any leaves its switch registered at other requests, whose completion then uses it; after an exception buf_ostream goes on writing into the buffer it passed to the writer, so that a block is stored with other elements; negations proved. Partial: what holds for every client, for clients that keep the protocol, up to the first exception, and when flush or the destructor returns. Submissions and allocations do not throw; no spurious wake-ups."
  },
  {
   "property": "C144",
   "status": "partial",
   "theorems": [
    "Foxxll.Reports.C144_false",
    "Foxxll.Reports.C144_copy_false",
    "Foxxll.Reports.C144_partial",
    "Foxxll.Reports.C144_ub",
    "Foxxll.Reports.C144_safe"
   ],
   "note": "False: a scope with bytes that ends in the microsecond in which it began (or so soon that the rate does not fit into 64 bits) converts a double out of range to an integer; a copied scoped_print_iostats reports twice, also after final_report; negations proved. Partial: all programs without copies and with defined calls; exactly which calls are undefined. Doubles without rounding; counters in the report are the subject of C43, C99, C100."
  },
  {
   "property": "C145",
   "status": "partial",
   "theorems": [
    "Foxxll.ConfigQuery.C145_false",
    "Foxxll.ConfigQuery.C145_index_false",
    "Foxxll.ConfigQuery.C145_sum_false",
    "Foxxll.ConfigQuery.C145_partial",
    "Foxxll.ConfigQuery.C145_first",
    "Foxxll.ConfigQuery.C145_index",
    "Foxxll.ConfigQuery.C145_before",
    "Foxxll.ConfigQuery.C145_total"
   ],
   "note": "False: the queries declared const do not initialise; asked first they fail an assertion, or without assertions answer for an empty list or access an element of it; indices are checked by disk() with assertions only; total_size is modulo 2^64; negations proved. Partial: every program after the initialisation that names existing disks, with sizes below 2^64 in total. Which disks are regular when disks are added behind flash disks is the subject of C38."
  },
  {
   "property": "C146",
   "status": "partial",
   "theorems": [
    "Foxxll.StrategyConfig.C146_false",
    "Foxxll.StrategyConfig.C146_none_false",
    "Foxxll.StrategyConfig.C146_uninit_false",
    "Foxxll.StrategyConfig.C146_mixed_false",
    "Foxxll.StrategyConfig.C146_partial",
    "Foxxll.StrategyConfig.C146_any"
   ],
   "note": "False: random_cyclic_disk divides by 0 if the disks were added by the program before the initialisation, random_cyclic_flash if there is no flash disk; before the initialisation random_cyclic_disk uses an uninitialised number; disks added behind flash disks make it choose a flash disk; negations proved. Partial: configurations initialised first and extended only while there is no flash disk (then exactly the cases without a disk of the kind are undefined); the other four strategies in every configuration."
  },
  {
   "property": "C147",
   "status": "partial",
   "theorems": [
    "Foxxll.SwapStore.C147_false",
    "Foxxll.SwapStore.C147_partial",
    "Foxxll.SwapStore.C147_starts",
    "Foxxll.SwapStore.C147_rules",
    "Foxxll.SwapStore.C147_end",
    "Foxxll.SwapStore.C147_memory",
    "Foxxll.SwapStore.C147_external"
   ],
   "note": "False: the external block of a block that is still acquired stays allocated and is lost; negation proved. Partial: all blocks that are not acquired are returned, of clients that use only identifiers they have, before the first exception. The prefetching algorithm is not composed with the store; its destructor is in C131_prefetch."
  },
  {
   "property": "C148",
   "status": "proved",
   "theorems": [
    "Foxxll.BlockElems.C148_values",
    "Foxxll.BlockElems.C148_frame",
    "Foxxll.BlockElems.C148_iterate",
    "Foxxll.BlockElems.C148_only_data"
   ],
   "note": "Layout as in C47. One file, as an array of bytes; transfers are done at once (see C98)."
  },
  {
   "property": "C149",
   "status": "partial",
   "theorems": [
    "Foxxll.PoolMem.C149_construct_false",
    "Foxxll.PoolMem.C149_write_false",
    "Foxxll.PoolMem.C149_resize_false",
    "Foxxll.PoolMem.C149_steal_false",
    "Foxxll.PoolMem.C149_partial",
    "Foxxll.PoolMem.C149_enough",
    "Foxxll.PoolMem.C149_oom",
    "Foxxll.PoolMem.C149_loss",
    "Foxxll.PoolMem.C149_forever",
    "Foxxll.PoolMem.C149_swap",
    "Foxxll.PoolMem.C149_add",
    "Foxxll.PoolMem.C149_agree",
    "Foxxll.PoolMem.C149_agree_write",
    "Foxxll.PoolMem.C149_agree_steal"
   ],
   "note": "False when the memory is exhausted: a failed constructor loses its blocks; a failed write leaves a request on a block of the client; a failed resize leaves a wrong counter; a failed steal or hint loses blocks; negations proved. Partial: exact ownership, no undefined step and no leak while no memory is exhausted; with exhausted memory no block is in two places or freed while owned, an exception loses at most two blocks, and lost ones stay lost. Requests that fail are the subject of PoolFail."
  },
  {
   "property": "C15",
   "status": "partial",
   "theorems": [
    "Foxxll.Prefetch.C15_false",
    "Foxxll.Prefetch.C15_safe_partial",
    "Foxxll.Prefetch.C15_order_and_content_partial",
    "Foxxll.Prefetch.C15_hand_out_partial",
    "Foxxll.Prefetch.C15_read_once_partial",
    "Foxxll.Prefetch.C15_no_deadlock_partial",
    "Foxxll.Prefetch.C15_schedule_ok"
   ],
   "note": "False under spurious condition-variable wake-ups (onoff_switch::wait_for_on uses if, not while); negation proved. Everything else of the statement is proved for runs without spurious wake-ups, every completion order, plus absence of deadlock for the computed schedule."
  },
  {
   "property": "C150",
   "status": "proved",
   "theorems": [
    "Foxxll.BidHash.C150_table",
    "Foxxll.BidHash.C150_hash",
    "Foxxll.BidHash.C150_bucket",
    "Foxxll.BidHash.C150_eq",
    "Foxxll.BidHash.C150_less"
   ],
   "note": "std::unordered_map as a list of buckets, as the standard describes it; the library itself is trusted."
  },
  {
   "property": "C151",
   "status": "partial",
   "theorems": [
    "Foxxll.NrefCheck.C151_false",
    "Foxxll.NrefCheck.C151_partial",
    "Foxxll.NrefCheck.C151_client",
    "Foxxll.NrefCheck.C151_stays",
    "Foxxll.NrefCheck.C151_alignment",
    "Foxxll.NrefCheck.C151_construct"
   ],
   "note": "False: a client that drops its pointer before the request is served gets both warnings although the worker refers to the request and completes it; witness proved. Partial: the tests are safe; a warning is given exactly if nobody but the worker refers to the request, never while a client keeps a pointer, and stays once given; no reference is ever lost. Alignment: exact."
  },
  {
   "property": "C152",
   "status": "partial",
   "theorems": [
    "Foxxll.ManagerLife.C152_false",
    "Foxxll.ManagerLife.C152_size_false",
    "Foxxll.ManagerLife.C152_terminate_false",
    "Foxxll.ManagerLife.C152_failed_partial",
    "Foxxll.ManagerLife.C152_construct",
    "Foxxll.ManagerLife.C152_retry",
    "Foxxll.ManagerLife.C152_destroy_partial"
   ],
   "note": "False: a constructor that throws leaks the allocators of the disks before the failing one; a disk of configured size 0 leaves an existing file as it was; an exception of set_size in the destructor ends the program; negations proved. Partial: exactly what a failed constructor leaves; retry gives the same as a first attempt; the destructor returns everything and restores the configured size of every disk that has one or has grown, and ends the program exactly if a grown file cannot be resized. Histories whose sizes fit into 64 bits; options of files and unlink_on_open left out."
  },
  {
   "property": "C153",
   "status": "partial",
   "theorems": [
    "Foxxll.WriterFail.C153_false",
    "Foxxll.WriterFail.C153_partial",
    "Foxxll.WriterFail.C153_terminates",
    "Foxxll.WriterFail.C153_ends"
   ],
   "note": "False as C18, also without any failure: with a batch size not smaller than the number of buffers get_free_block waits for ever; witness proved. Partial: proved if the batch size and the buffers of the client together are fewer than the buffers, for all failures and exceptions before; after an exception the end may be undefined behaviour (C143_ub_false)."
  },
  {
   "property": "C154",
   "status": "partial",
   "theorems": [
    "Foxxll.Helpers.C154_default",
    "Foxxll.Helpers.C154_false",
    "Foxxll.Helpers.C154_partial",
    "Foxxll.Helpers.C154_last_partial"
   ],
   "note": "False: a DEFAULT that stands before the case with the tag hides that case; witness proved. Partial: exactly which case is selected for every chain; the property itself if DEFAULT is the last case and the tags differ."
  },
  {
   "property": "C155",
   "status": "partial",
   "theorems": [
    "Foxxll.Helpers.C155_false",
    "Foxxll.Helpers.C155_swap_partial",
    "Foxxll.Helpers.C155_swap_same_partial",
    "Foxxll.Helpers.C155_swap_bounds",
    "Foxxll.Helpers.C155_pop",
    "Foxxll.Helpers.C155_pop_begin",
    "Foxxll.Helpers.C155_text_false",
    "Foxxll.Helpers.C155_text_partial"
   ],
   "note": "False: arrays that overlap are mixed up; texts that are no numbers are read as 0, negative ones as large numbers, and atoi64 is undefined for numbers that do not fit; witnesses proved. Partial: arrays that are disjoint or the same; pops in general; texts made by to_str."
  },
  {
   "property": "C156",
   "status": "partial",
   "theorems": [
    "Foxxll.StreamFail.C156_false",
    "Foxxll.StreamFail.C156_start_partial",
    "Foxxll.StreamFail.C156_safe_partial",
    "Foxxll.StreamFail.C156_partial",
    "Foxxll.StreamFail.C156_terminates",
    "Foxxll.StreamFail.C156_ends",
    "Foxxll.StreamFail.C156_goes_on",
    "Foxxll.StreamFail.C156_agree",
    "Foxxll.StreamFail.C156_schedule"
   ],
   "note": "False as C15: a wait that returns without notification gives the stream a buffer without data; witness proved. Partial: proved without such wake-ups, for every order of prefetching in which block k is among the first k + buffers ones, which the schedules of the library satisfy. Also: without failures this model and that of C16 agree."
  },
  {
   "property": "C157",
   "status": "proved",
   "theorems": [
    "Foxxll.WriterFail.C157",
    "Foxxll.WriterFail.C157_terminates",
    "Foxxll.WriterFail.C157_ends",
    "Foxxll.WriterFail.C157_dropped"
   ],
   "note": "Without conditions on the numbers of buffers: the stream chooses the batch size itself. Before an exception from C153; after it the stream breaks the protocol of the writer, and the proof uses what holds for every client: a failed request stays in the list of busy blocks."
  },
  {
   "property": "C16",
   "status": "partial",
   "theorems": [
    "Foxxll.Stream.C16_false",
    "Foxxll.Stream.C16_output",
    "Foxxll.Stream.C16_readBuffers",
    "Foxxll.Stream.C16_input_partial",
    "Foxxll.Stream.C16_roundtrip_partial",
    "Foxxll.Stream.C16_output_progress",
    "Foxxll.Stream.C16_input_progress_partial"
   ],
   "note": "Composition of the stream classes with the writer and prefetcher models. False with spurious wake-ups (inherited from C15); the whole statement is proved for runs without them, for every interleaving and completion order."
  },
  {
   "property": "C17",
   "status": "partial",
   "theorems": [
    "Foxxll.BufWriter.C17_false",
    "Foxxll.BufWriter.C17_wrong_data",
    "Foxxll.BufWriter.C17_handed_out_partial",
    "Foxxll.BufWriter.C17_nothing_extra_partial",
    "Foxxll.BufWriter.C17_flush_complete_partial",
    "Foxxll.BufWriter.C17_batch_order"
   ],
   "note": "False: flush() puts buffers still held by the client on the free list (buf_writer.hpp:186-190); negation proved. Partial: everything holds if the client gives up its buffers when it calls flush."
  },
  {
   "property": "C18",
   "status": "partial",
   "theorems": [
    "Foxxll.BufWriter.C18_false",
    "Foxxll.BufWriter.C18_not_stuck_partial",
    "Foxxll.BufWriter.C18_terminates_partial",
    "Foxxll.BufWriter.C18_ostream"
   ],
   "note": "False: the constructor accepts writebatchsize >= nwriteblocks, then get_free_block waits forever; negation proved. Partial: deadlock-free and terminating for writebatchsize < nwriteblocks and a client with one buffer at a time; buf_ostream always satisfies this."
  },
  {
   "property": "C19",
   "status": "partial",
   "theorems": [
    "Foxxll.Pool.C19_false",
    "Foxxll.Pool.C19_partial",
    "Foxxll.Pool.C19_steal",
    "Foxxll.Pool.C19_wsize",
    "Foxxll.Pool.C19_psize",
    "Foxxll.Pool.C19_no_assert"
   ],
   "note": "False: after a spurious wake-up wait_any returns the end iterator and steal runs into its assertion (write_pool.hpp:162); negation proved. Partial: the whole statement without spurious wake-ups, for every history and completion order, also for reordering queues."
  },
  {
   "property": "C20",
   "status": "partial",
   "theorems": [
    "Foxxll.Pool.C20_false",
    "Foxxll.Pool.C20_partial",
    "Foxxll.Pool.C20_history"
   ],
   "note": "False for disk queues that reorder accesses to one block (linuxaio); negation proved. Partial: holds for every history if the queue serves accesses to one block behind earlier writes of it."
  },
  {
   "property": "C21",
   "status": "proved",
   "theorems": [
    "Foxxll.Queue.C21_fifo",
    "Foxxll.Queue.C21_cancel",
    "Foxxll.Queue.C21_progress",
    "Foxxll.Queue.C21_idle",
    "Foxxll.Queue.C21_no_error"
   ],
   "note": "Every interleaving of submitters, cancellers, worker and destructor. Progress: the queue can always drain by steps of threads already inside it."
  },
  {
   "property": "C22",
   "status": "partial",
   "theorems": [
    "Foxxll.Queue.C22_false",
    "Foxxll.Queue.C22_partial",
    "Foxxll.Queue.C22_at_most_one_lost",
    "Foxxll.Queue.C22_terminates"
   ],
   "note": "False: the worker can see TERMINATING before the matching sem.signal() and then leaves one queued request unserved (request_queue_impl_worker.cpp:45-46); negation proved for both queues. Partial: complete if the two statements are not interleaved with the worker; at most one request is lost in any case; the destructor never hangs."
  },
  {
   "property": "C23",
   "status": "partial",
   "theorems": [
    "Foxxll.Queue.C23_false",
    "Foxxll.Queue.C23_fifo",
    "Foxxll.Queue.C23_partial"
   ],
   "note": "False after a cancellation: the worker can be in its read phase with an empty read queue, then a later read overtakes an earlier write; negation proved. Partial: FIFO of reads and of writes always; reads after writes for histories without cancellation."
  },
  {
   "property": "C24",
   "status": "partial",
   "theorems": [
    "Foxxll.Request.C24_false",
    "Foxxll.Request.C24_wait_partial",
    "Foxxll.Request.C24_once_partial",
    "Foxxll.Request.C24_poll_partial",
    "Foxxll.Request.C24_completes",
    "Foxxll.Request.C24_ub_only",
    "Foxxll.Request.C24_no_ub_partial"
   ],
   "note": "False: cancel() tests file_ and dereferences it later, unsynchronised with completed() of the worker, so a cancel racing with completion can dereference a null pointer (request_with_state.cpp:51-55); negation proved. Partial: everything else holds on every interleaving, and this is the only undefined behaviour."
  },
  {
   "property": "C25",
   "status": "partial",
   "theorems": [
    "Foxxll.Request.C25_false",
    "Foxxll.Request.C25_partial"
   ],
   "note": "False as documented: a successful cancel() does call the handler, with success=false (request_with_state.cpp:58-59); negation proved. Partial: it is called exactly once, never with success=true, and the data is not transferred."
  },
  {
   "property": "C26",
   "status": "proved",
   "theorems": [
    "Foxxll.WaitAny.C26_no_lost",
    "Foxxll.WaitAny.C26_returns",
    "Foxxll.WaitAny.C26_own_steps"
   ],
   "note": "Any number of requests and calls, every interleaving, spurious wake-ups and I/O errors included; liveness for every scheduler fair to the call."
  },
  {
   "property": "C27",
   "status": "partial",
   "theorems": [
    "Foxxll.Switch.C27_false",
    "Foxxll.Switch.C27_false_without_spurious",
    "Foxxll.Switch.C27_partial"
   ],
   "note": "False: the test is if, not while; a spurious wake-up, or the notify_one of off(), releases wait_for_on; both negations proved. Partial: holds without spurious wake-ups and opposite settings."
  },
  {
   "property": "C28",
   "status": "proved",
   "theorems": [
    "Foxxll.Shared.C28_returns",
    "Foxxll.Shared.C28_no_lost",
    "Foxxll.Shared.C28_released"
   ],
   "note": "Any value type, any number of threads, spurious wake-ups; liveness for every fair run."
  },
  {
   "property": "C29",
   "status": "partial",
   "theorems": [
    "Foxxll.Aio.C29_false",
    "Foxxll.Aio.C29_partial",
    "Foxxll.Aio.C29_exact_partial"
   ],
   "note": "False: a cancellation confirmed by the kernel frees its event twice (linuxaio_queue.cpp:130-136 after handle_events); negation proved. Partial: holds for every interleaving and kernel behaviour without confirmed cancellations."
  },
  {
   "property": "C30",
   "status": "partial",
   "theorems": [
    "Foxxll.Aio.C30_false",
    "Foxxll.Aio.C30_never",
    "Foxxll.Aio.negotiate_fuel",
    "Foxxll.Aio.C30_partial",
    "Foxxll.Aio.C30_range"
   ],
   "note": "False: the loop doubles (max_events_ <<= 1, linuxaio_queue.cpp:52) instead of halving; negation proved, and that it never helps under any monotone kernel. Partial: first wish accepted or refused for good."
  },
  {
   "property": "C31",
   "status": "partial",
   "theorems": [
    "Foxxll.Aio.C31_false",
    "Foxxll.Aio.C31_false_destructor",
    "Foxxll.Aio.C31_blocks",
    "Foxxll.Aio.C31_partial",
    "Foxxll.Aio.C31_drains_partial"
   ],
   "note": "False: with a partially accepted batch posting and waiting thread can deadlock for good; negation proved. Partial: if whole batches are accepted the wait is short, and everything submitted can always be completed."
  },
  {
   "property": "C32",
   "status": "partial",
   "theorems": [
    "Foxxll.Aio.C32_false",
    "Foxxll.Aio.C32_false_deadlock",
    "Foxxll.Aio.C32_partial"
   ],
   "note": "False: a confirmed cancellation is accounted twice, the second completion dereferences null; or it deadlocks under waiting_mtx_; negations proved. Partial: the first accounting alone is right."
  },
  {
   "property": "C33",
   "status": "proved",
   "theorems": [
    "Foxxll.Files.C33_read",
    "Foxxll.Files.C33_write",
    "Foxxll.Files.C33_errors",
    "Foxxll.Files.C33_no_progress"
   ],
   "note": "Every file, offset, length and pattern of partial transfers and failures. A read that starts at or behind the end of the file throws (proved)."
  },
  {
   "property": "C34",
   "status": "partial",
   "theorems": [
    "Foxxll.Files.C34_false",
    "Foxxll.Files.C34_partial"
   ],
   "note": "False if memory runs out: realloc result stored untested (memory_file.cpp:66-73); negation proved. Partial: holds for every history while memory is granted."
  },
  {
   "property": "C35",
   "status": "partial",
   "theorems": [
    "Foxxll.Files.C35_names",
    "Foxxll.Files.C35_independent",
    "Foxxll.Files.C35_false",
    "Foxxll.Files.C35_false_trunc",
    "Foxxll.Files.C35_partial"
   ],
   "note": "Names and independence of offsets hold in full. Read-your-writes is false: serve also sets the size before a read, so a shorter read cuts the block; negation proved. Partial: holds if accesses to one offset have one length and the mode has no TRUNC."
  },
  {
   "property": "C36",
   "status": "partial",
   "theorems": [
    "Foxxll.Config.C36_false",
    "Foxxll.Config.C36_false_linuxaio",
    "Foxxll.Config.C36_partial",
    "Foxxll.Config.C36_line_partial"
   ],
   "note": "False: \" flash\" is printed but refused by the parser; also for linuxaio raw devices and queue -2; negations proved. Partial: every valid combination of options of a regular disk with any values, and every accepted disk= line, round-trips."
  },
  {
   "property": "C37",
   "status": "partial",
   "theorems": [
    "Foxxll.Config.C37_false",
    "Foxxll.Config.C37_partial"
   ],
   "note": "False: a blank I/O implementation raises std::out_of_range; negation proved. Partial: no out-of-range element access for any string; runtime_error or acceptance for every line with a non-blank third field."
  },
  {
   "property": "C38",
   "status": "partial",
   "theorems": [
    "Foxxll.Config.C38_false",
    "Foxxll.Config.C38_false_more",
    "Foxxll.Config.C38_partial"
   ],
   "note": "False: disks added before the initialisation count as flash (first_flash reset), and three more ways; negations proved. Partial: holds if initialised first and disks are added only while there is no flash disk."
  },
  {
   "property": "C39",
   "status": "partial",
   "theorems": [
    "Foxxll.Config.C39_false",
    "Foxxll.Config.C39_false_wrap",
    "Foxxll.Config.C39_partial",
    "Foxxll.Open.C39_disks_partial"
   ],
   "note": "False: ids given out before initialize() are given out again after it; overflow after explicit id 2^32-2; negations proved. Partial: fresh after the initialisation without overflow."
  },
  {
   "property": "C40",
   "status": "proved",
   "theorems": [
    "Foxxll.Iostats.C40_time",
    "Foxxll.Iostats.C40_count"
   ],
   "note": "Every interleaving of the sections of any number of threads, in any order of the timestamps; exact arithmetic instead of doubles. Cancelled requests are taken off count and bytes but their time stays; counters modulo 2^32 and 2^64."
  },
  {
   "property": "C41",
   "status": "proved",
   "theorems": [
    "Foxxll.Iostats.C41_parallel",
    "Foxxll.Iostats.C41_parallel_io",
    "Foxxll.Iostats.C41_parallel_wait",
    "Foxxll.Iostats.C41_reported",
    "Foxxll.Iostats.C41_order_needed"
   ],
   "note": "Under the time order assumed by the property; C41_order_needed shows that it is needed (the code does not ensure it). Exact arithmetic instead of doubles."
  },
  {
   "property": "C42",
   "status": "partial",
   "theorems": [
    "Foxxll.Iostats.C42_false",
    "Foxxll.Iostats.C42_partial"
   ],
   "note": "False: the test is it->get_device_id() instead of a comparison with device_id, and back() is returned after an insertion in the middle (iostats.cpp:360-364); negation proved. Partial: each id larger than all before, or not 0 and asked before, or all 0."
  },
  {
   "property": "C43",
   "status": "proved",
   "theorems": [
    "Foxxll.Iostats.C43_add_sub",
    "Foxxll.Iostats.C43_per_device",
    "Foxxll.Iostats.C43_activity",
    "Foxxll.Iostats.C43_lists",
    "Foxxll.Iostats.C43_subtrahend_only"
   ],
   "note": "tlx::merge_combine is external and assumed to be the merge of sorted sequences. Counter differences modulo 2^32 and 2^64. A device only in the subtrahend is kept with values not negated (C43_subtrahend_only)."
  },
  {
   "property": "C44",
   "status": "proved",
   "theorems": [
    "Foxxll.UInt.Pair.C44_conversions",
    "Foxxll.UInt.Pair.C44_arithmetic"
   ],
   "note": "All widths h<=32 of the high part (8 and 16 in the library)."
  },
  {
   "property": "C45",
   "status": "proved",
   "theorems": [
    "Foxxll.UInt.Pair.C45_order"
   ],
   "note": "All six operators, min, max."
  },
  {
   "property": "C46",
   "status": "proved",
   "theorems": [
    "Foxxll.Arith.C46_aligned_alloc",
    "Foxxll.Arith.C46_realloc_only_shrinks",
    "Foxxll.Arith.C46_array_elements_aligned"
   ],
   "note": "malloc/realloc results arbitrary; sizes do not overflow 64 bits."
  },
  {
   "property": "C47",
   "status": "proved",
   "theorems": [
    "Foxxll.Arith.C47_layout",
    "Foxxll.Arith.C47_accepted",
    "Foxxll.Arith.C47_aligned"
   ],
   "note": "Layout with C++ alignment rules (Itanium ABI); BID is 16 bytes, alignment 8."
  },
  {
   "property": "C48",
   "status": "proved",
   "theorems": [
    "Foxxll.Arith.C48_div_ceil",
    "Foxxll.Arith.C48_round_up"
   ],
   "note": "round_up for 64-bit unsigned."
  },
  {
   "property": "C49",
   "status": "proved",
   "theorems": [
    "Foxxll.AddrQ.C49_fifo_refines"
   ],
   "note": "Refinement: all call sequences, including handles; undefined behaviour exactly characterised."
  },
  {
   "property": "C50",
   "status": "proved",
   "theorems": [
    "Foxxll.AddrQ.C50_pq_refines"
   ],
   "note": "Refinement for every strict weak order."
  },
  {
   "property": "C51",
   "status": "partial",
   "theorems": [
    "Foxxll.Swap.C51_false",
    "Foxxll.Swap.C51_partial",
    "Foxxll.Swap.C51_survives",
    "Foxxll.Swap.C51_external"
   ],
   "note": "False: a block with external data acquired uninitialized and released not dirty stays internal with undefined contents that count as its data; negation proved. Partial: clients that release such a block dirty; every history, memory size, algorithm (online_lru, offline_lfd, switches between them). I/O synchronous and without errors; fill_default assumed to set the default."
  },
  {
   "property": "C52",
   "status": "proved",
   "theorems": [
    "Foxxll.Swap.C52_account",
    "Foxxll.Swap.C52_blocks",
    "Foxxll.Swap.C52_acquire",
    "Foxxll.Swap.C52_progress",
    "Foxxll.Swap.C52_max"
   ],
   "note": "Every history of calls that did not fail, without rules about the data. The maximum is rounded up (C52_max)."
  },
  {
   "property": "C53",
   "status": "partial",
   "theorems": [
    "Foxxll.Swap.C53_false_invalid",
    "Foxxll.Swap.C53_false_acquired",
    "Foxxll.Swap.C53_partial",
    "Foxxll.Swap.C53_recorded"
   ],
   "note": "False with an invalid external block in initialize, and for a simulation started while a block is acquired; negations proved. Partial: all other histories of fewer than 2^64-1 calls."
  },
  {
   "property": "C54",
   "status": "partial",
   "theorems": [
    "Foxxll.Swap.C54_false",
    "Foxxll.Swap.C54_partial",
    "Foxxll.Swap.C54_never_partial"
   ],
   "note": "False: a block that is extracted next is evicted before one that is never used again, though it is acquired later; negation proved. Partial: with respect to the next operation of a block, in times below 2^62-1; as stated for sequences of acquire and release only. Latest means in the time stamps of the simulation, which may be equal for several acquires."
  },
  {
   "property": "C55",
   "status": "proved",
   "theorems": [
    "Foxxll.Arith.C55_longhash1_injective"
   ],
   "note": ""
  },
  {
   "property": "C56",
   "status": "partial",
   "theorems": [
    "Foxxll.Arith.C56_false",
    "Foxxll.Arith.C56_memalign_partial"
   ],
   "note": "False: if sizeof(char*)+meta is a multiple of the alignment the user range leaves the heap block (aligned_alloc.hpp:70-82); negation proved. Partial: true otherwise."
  },
  {
   "property": "C57",
   "status": "proved",
   "theorems": [
    "Foxxll.Mgr.C57_capacity",
    "Foxxll.Mgr.C57_exact"
   ],
   "note": "Any number of disks, any history."
  },
  {
   "property": "C58",
   "status": "partial",
   "theorems": [
    "Foxxll.WaitAny.C58_false",
    "Foxxll.WaitAny.C58_partial",
    "Foxxll.WaitAny.C58_only_thrown"
   ],
   "note": "False: if a request failed, add_waiter/poll throws inside wait_any and the switch on the stack stays registered; negation proved. Partial: holds without I/O errors; with them, only calls left by an exception dangle."
  },
  {
   "property": "C59",
   "status": "partial",
   "theorems": [
    "Foxxll.WaitAny.C59_false",
    "Foxxll.WaitAny.C59_partial",
    "Foxxll.WaitAny.C59_result_partial"
   ],
   "note": "False under a spurious wake-up (reqs_end returned); negation proved. Partial: true otherwise, and a result other than reqs_end is always finished."
  },
  {
   "property": "C60",
   "status": "partial",
   "theorems": [
    "Foxxll.Switch.C60_false",
    "Foxxll.Switch.C60_partial"
   ],
   "note": "False with two waiters (notify_one); negation proved. Partial: holds if waits do not overlap."
  },
  {
   "property": "C61",
   "status": "partial",
   "theorems": [
    "Foxxll.Aio.C61_false",
    "Foxxll.Aio.C61_false_in_flight",
    "Foxxll.Aio.C61_partial",
    "Foxxll.Aio.C61_returns_partial"
   ],
   "note": "False: a request or an operation in flight can be dropped if TERMINATING is set between taking a token and testing the state; negation proved for both threads. Partial: complete outside these windows."
  },
  {
   "property": "C62",
   "status": "partial",
   "theorems": [
    "Foxxll.Aio.C62_false",
    "Foxxll.Aio.C62_partial"
   ],
   "note": "False with confirmed cancellations (C32). Partial: holds for every interleaving and kernel behaviour without them."
  },
  {
   "property": "C63",
   "status": "partial",
   "theorems": [
    "Foxxll.Aio.C63_false",
    "Foxxll.Aio.C63_never"
   ],
   "note": "False: io_event::res is never looked at; negation proved, and that every such request is reported as a success. Nothing of the property is left to prove."
  },
  {
   "property": "C64",
   "status": "partial",
   "theorems": [
    "Foxxll.Files.C64_false",
    "Foxxll.Files.C64_partial",
    "Foxxll.Files.C64_sigbus"
   ],
   "note": "False: bytes written behind the end of the file in its last page are lost silently, further behind SIGBUS; negation proved. Partial: exact for non-empty page-aligned ranges inside the file."
  },
  {
   "property": "C65",
   "status": "partial",
   "theorems": [
    "Foxxll.Config.C65_false",
    "Foxxll.Config.C65_partial"
   ],
   "note": "False: replace(pos, 3, ...) also removes the character behind $$; negation proved. Partial: right if $$ is at the end or absent; exact behaviour otherwise."
  },
  {
   "property": "C66",
   "status": "partial",
   "theorems": [
    "Foxxll.Config.C66_false",
    "Foxxll.Config.C66_partial"
   ],
   "note": "False: raw_device and queue_length are not reset; negation proved. Partial: everything else is."
  },
  {
   "property": "C67",
   "status": "proved",
   "theorems": [
    "Foxxll.Iostats.C67_waits"
   ],
   "note": "Every interleaving and order of timestamps; exact arithmetic instead of doubles."
  },
  {
   "property": "C68",
   "status": "proved",
   "theorems": [
    "Foxxll.Iostats.C68_timer"
   ],
   "note": "Every sequence of start and stop by the owner of the timer."
  },
  {
   "property": "C69",
   "status": "proved",
   "theorems": [
    "Foxxll.Config.C69_words",
    "Foxxll.Config.C69_restricted"
   ],
   "note": "For every state of the object."
  },
  {
   "property": "C70",
   "status": "partial",
   "theorems": [
    "Foxxll.Config.C70_false",
    "Foxxll.Config.C70_partial",
    "Foxxll.Config.C70_range"
   ],
   "note": "False: an empty text is 0 and values are truncated to 32 bits; negation proved. Partial: an accepted text is empty or a decimal number, and numbers in the range of int keep their value."
  },
  {
   "property": "C71",
   "status": "proved",
   "theorems": [
    "Foxxll.Swap.C71_lru",
    "Foxxll.Swap.C71_one"
   ],
   "note": "Every history of online_lru; also histories of clients that keep no rules except initialize with their own external blocks."
  },
  {
   "property": "C72",
   "status": "proved",
   "theorems": [
    "Foxxll.Swap.C72_smallest",
    "Foxxll.Swap.C72_valid",
    "Foxxll.Ahead.C72_prefetch"
   ],
   "note": "The rule that a client uses only identifiers it has is part of the statement (a double free gives an identifier out twice). Histories with online_lru, offline_lfd and offline_lru_prefetching; for the simulation see C132."
  },
  {
   "property": "C73",
   "status": "proved",
   "theorems": [
    "Foxxll.Swap.C73_flush"
   ],
   "note": "I/O synchronous and without errors; online_lru and offline_lfd."
  },
  {
   "property": "C74",
   "status": "proved",
   "theorems": [
    "Foxxll.Swap.C74_switch",
    "Foxxll.Swap.C74_order",
    "Foxxll.Swap.C74_data",
    "Foxxll.Swap.C74_ties"
   ],
   "note": "For online_lru and offline_lfd."
  },
  {
   "property": "C75",
   "status": "proved",
   "theorems": [
    "Foxxll.Open.C75_direct",
    "Foxxll.Open.C75_required",
    "Foxxll.Open.C75_fallback",
    "Foxxll.Open.C75_named"
   ],
   "note": "Every oracle of system calls, mode, disk, build option; linux branches of the source."
  },
  {
   "property": "C76",
   "status": "partial",
   "theorems": [
    "Foxxll.Open.C76_false",
    "Foxxll.Open.C76_partial",
    "Foxxll.Open.C76_disks"
   ],
   "note": "False: an exception of fstat or fcntl in the constructor leaks the descriptor; negation proved. Partial: exactly then one descriptor is leaked, otherwise none."
  },
  {
   "property": "C77",
   "status": "partial",
   "theorems": [
    "Foxxll.Open.C77_false",
    "Foxxll.Open.C77_partial",
    "Foxxll.Open.C77_constructor_partial"
   ],
   "note": "False: create_file locks in spite of NO_LOCK; negation proved. Partial: the rest."
  },
  {
   "property": "C78",
   "status": "partial",
   "theorems": [
    "Foxxll.Open.C78_false_locked",
    "Foxxll.Open.C78_false_mmap",
    "Foxxll.Open.C78_partial",
    "Foxxll.Open.C78_disks_partial",
    "Foxxll.Open.C78_expected"
   ],
   "note": "False for a device that could not be opened and for mmap; negations proved. Partial: opening removes and truncates nothing; for syscall and linuxaio nothing at exit either."
  },
  {
   "property": "C79",
   "status": "partial",
   "theorems": [
    "Foxxll.Open.C79_false",
    "Foxxll.Open.C79_partial"
   ],
   "note": "False: files never opened are removed; negation proved. Partial: exactly the disks with the option, each once."
  },
  {
   "property": "C80",
   "status": "partial",
   "theorems": [
    "Foxxll.Open.C80_false",
    "Foxxll.Open.C80_partial"
   ],
   "note": "False for REQUIRE_DIRECT without DIRECT in the constructor; negation proved. Partial: files from create_file."
  },
  {
   "property": "C81",
   "status": "partial",
   "theorems": [
    "Foxxll.DiskQ.C81_false",
    "Foxxll.DiskQ.C81_partial",
    "Foxxll.DiskQ.C81_cancel_partial",
    "Foxxll.DiskQ.C81_cancel_none",
    "Foxxll.DiskQ.C81_length"
   ],
   "note": "False: queue=-2 for another file than linuxaio; negation proved. Partial: all other configurations. Serving is not part of this model (C14, C31)."
  },
  {
   "property": "C82",
   "status": "partial",
   "theorems": [
    "Foxxll.DiskQ.C82_false",
    "Foxxll.DiskQ.C82_partial"
   ],
   "note": "False: a disk may name the default queue of another; negation proved. Partial: the queue of each disk, hence no two disks with the default share one."
  },
  {
   "property": "C83",
   "status": "proved",
   "theorems": [
    "Foxxll.Single.C83_unique",
    "Foxxll.Single.C83_exclusive",
    "Foxxll.Single.C83_exception"
   ],
   "note": "Accesses to instance_ are atomic in the model (they are a data race in the C++ standard)."
  },
  {
   "property": "C84",
   "status": "partial",
   "theorems": [
    "Foxxll.Single.C84_false",
    "Foxxll.Single.C84_partial",
    "Foxxll.Single.C84_single_partial",
    "Foxxll.Single.C84_library",
    "Foxxll.Single.C84_creates"
   ],
   "note": "False: instance_ is set before the handler is registered, so that another thread may use the object and register first; negation proved for stats and disk_queues. Partial: if no thread receives a pointer in between, in particular with one thread."
  },
  {
   "property": "C85",
   "status": "proved",
   "theorems": [
    "Foxxll.Single.C85_progress",
    "Foxxll.Single.C85_ends",
    "Foxxll.Single.C85_library",
    "Foxxll.Single.C85_circle"
   ],
   "note": "No deadlock and finitely many steps in all; C85_circle shows that the condition is needed."
  },
  {
   "property": "C86",
   "status": "partial",
   "theorems": [
    "Foxxll.Open.C86_false",
    "Foxxll.Open.C86_false_direct",
    "Foxxll.Open.C86_partial",
    "Foxxll.Open.C86_removed"
   ],
   "note": "False with NO_LOCK and for direct=on in a build without direct I/O: the lock file of the other process is removed; negations proved. Partial: otherwise a lock not granted makes create_file throw with the file untouched; a destroyed file removes its lock file."
  },
  {
   "property": "C87",
   "status": "partial",
   "theorems": [
    "Foxxll.Timer.C87_false",
    "Foxxll.Timer.C87_false_start",
    "Foxxll.Timer.C87_partial",
    "Foxxll.Timer.C87_later"
   ],
   "note": "False for a stop without start and for a second start; negations proved. Partial: start and stop in turn, with resets and additions anywhere. Exact arithmetic instead of doubles."
  },
  {
   "property": "C88",
   "status": "partial",
   "theorems": [
    "Foxxll.ReqOps.C88_false",
    "Foxxll.ReqOps.C88_partial",
    "Foxxll.ReqOps.C88_thrown",
    "Foxxll.ReqOps.C88_progress"
   ],
   "note": "False: an I/O error leaves wait_all while other requests are still queued or served; negation proved. Partial: normal return; what holds after an exception; it waits only for unfinished requests."
  },
  {
   "property": "C89",
   "status": "partial",
   "theorems": [
    "Foxxll.ReqOps.C89_false",
    "Foxxll.ReqOps.C89_partial",
    "Foxxll.ReqOps.C89_progress"
   ],
   "note": "False: the I/O error of one request, even before it is completed, hides a completed one; negation proved. Partial: without errors."
  },
  {
   "property": "C90",
   "status": "proved",
   "theorems": [
    "Foxxll.ReqOps.C90_cancel",
    "Foxxll.ReqOps.C90_all"
   ],
   "note": "Successful cancel of one request is one step here (C20 has the details). Requests of the call are different from each other."
  },
  {
   "property": "C91",
   "status": "partial",
   "theorems": [
    "Foxxll.Ahead.C91_false",
    "Foxxll.Ahead.C91_partial",
    "Foxxll.Ahead.C91_online_partial",
    "Foxxll.Ahead.C91_external_partial"
   ],
   "note": "False with extract_external_block in the sequence: a write is started without a taker and the internal block given away while it is pending; negation proved. Partial: sequences (with extract) in which a block released before its extraction is not used again. I/O does not fail; fill_default always gives the same data."
  },
  {
   "property": "C92",
   "status": "partial",
   "theorems": [
    "Foxxll.Ahead.C92_false_extract",
    "Foxxll.Ahead.C92_false_flush",
    "Foxxll.Ahead.C92_false_alloc",
    "Foxxll.Ahead.C92_start",
    "Foxxll.Ahead.C92_partial",
    "Foxxll.Ahead.C92_other",
    "Foxxll.Ahead.C92_only",
    "Foxxll.Ahead.C92_alloc_partial"
   ],
   "note": "False for extract of a block in memory, after flush, and for allocation while a completion handler holds an iterator; negations proved. Partial: all sequences, before flush, allocation while no completion handler has a read to start; exact conditions for acquire and extract."
  },
  {
   "property": "C93",
   "status": "partial",
   "theorems": [
    "Foxxll.Ahead.C93_false",
    "Foxxll.Ahead.C93_acquired_partial",
    "Foxxll.Ahead.C93_free_partial",
    "Foxxll.Ahead.C93_apart_partial"
   ],
   "note": "False with extract_external_block in the sequence; negation proved. Partial: sequences in which a block released before its extraction is not used again."
  },
  {
   "property": "C94",
   "status": "proved",
   "theorems": [
    "Foxxll.Ahead.C94",
    "Foxxll.Ahead.C94_reserved",
    "Foxxll.Ahead.C94_acquire"
   ],
   "note": "All sequences. A block being read includes one whose read will be started by the completion handler of the write of the previous owner of its internal block. I/O does not fail."
  },
  {
   "property": "C95",
   "status": "partial",
   "theorems": [
    "Foxxll.Ahead.C95_false",
    "Foxxll.Ahead.C95_partial"
   ],
   "note": "False after flush, which gives up the schedule; negation proved. Partial: all sequences, before flush."
  },
  {
   "property": "C96",
   "status": "proved",
   "theorems": [
    "Foxxll.Ahead.C96"
   ],
   "note": "All sequences. I/O does not fail."
  },
  {
   "property": "C97",
   "status": "partial",
   "theorems": [
    "Foxxll.Ahead.C97_false",
    "Foxxll.Ahead.C97_partial"
   ],
   "note": "False: the evictable blocks are a std::set, the smallest identifier is evicted; negation proved. Partial: only if there is no free block; the block of smallest identifier, which is the least recently used one if identifiers are in the order of the releases."
  },
  {
   "property": "C98",
   "status": "partial",
   "theorems": [
    "Foxxll.Store.C98_false",
    "Foxxll.Store.C98_partial",
    "Foxxll.Store.C98_wait",
    "Foxxll.Store.C98_disk",
    "Foxxll.Store.C98_errors",
    "Foxxll.Store.C98_cancel",
    "Foxxll.Store.C98_grow"
   ],
   "note": "False with cancellation in the default kind of queue (read and write queue): a read may overtake the write of its block; negation proved. Partial: both kinds of queue, without cancellation in the default one; with cancellation, reads submitted when no write of the block is pending; contents of the disk, errors and cancellation itself without restriction. Files of type syscall_file; set_size does not fail; transfers may fail and may be split by the operating system."
  },
  {
   "property": "C99",
   "status": "partial",
   "theorems": [
    "Foxxll.Summary.C99_false",
    "Foxxll.Summary.C99_false_speed",
    "Foxxll.Summary.C99_partial",
    "Foxxll.Summary.C99_total",
    "Foxxll.Summary.C99_speed_partial",
    "Foxxll.Summary.C99_empty"
   ],
   "note": "False: sums of unsigned counters wrap, and speeds of unused devices are NaN, for which std::sort is undefined; negations proved. Partial: sums within the range of the type; speeds of used devices. Doubles without rounding."
  }
 ]
}