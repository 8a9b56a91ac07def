{"id": "C01", "title": "Live blocks on a disk never overlap", "statement": "After any history of successful block allocations and deallocations on one disk, the byte ranges of all blocks that were handed out and not yet given back are pairwise disjoint and lie inside [0, total bytes of the disk).", "quantifier": "every sequence of allocate(list of sizes > 0)/free(live block) calls, every initial size, autogrow on or off", "why_tests_cant": "overlap depends on the exact fragmentation produced by an arbitrarily long history; tests only sample short histories", "anchors": [{"file": "foxxll/mng/disk_block_allocator.hpp", "symbols": ["disk_block_allocator::new_blocks", "grow_file"]}, {"file": "foxxll/mng/disk_block_allocator.cpp", "symbols": ["add_free_region"]}]}
{"id": "C02", "title": "Byte accounting of a disk is exact", "statement": "At every point free_bytes + (sum of sizes of live blocks) = total_bytes, used_bytes is the sum of sizes of live blocks, and the free map's regions sum to free_bytes.", "quantifier": "every allocate/free history", "why_tests_cant": "counter drift only shows after particular long histories (coalescing cases, grow in the middle of an allocation)", "anchors": [{"file": "foxxll/mng/disk_block_allocator.hpp", "symbols": ["free_bytes", "used_bytes", "total_bytes", "new_blocks", "delete_block"]}, {"file": "foxxll/mng/disk_block_allocator.cpp", "symbols": ["add_free_region"]}]}
{"id": "C03", "title": "Free space is always fully coalesced and giving everything back restores one region", "statement": "In every reachable state the free regions are non-empty, sorted, disjoint and no two of them touch; consequently once every live block has been freed (in any order) the disk consists of exactly one free region [0,total) and any single request up to total_bytes succeeds without growing the file.", "quantifier": "every allocate/free history and every order of freeing", "why_tests_cant": "permutations of frees are factorially many", "anchors": [{"file": "foxxll/mng/disk_block_allocator.cpp", "symbols": ["add_free_region"]}]}
{"id": "C04", "title": "Freeing space that is (partly) free is rejected without damage", "statement": "A free of a byte range of positive size that intersects free space raises bad_ext_alloc and leaves all allocator state unchanged; a free of a live block never raises.", "quantifier": "every reachable allocator state and every offset/size", "why_tests_cant": "requires all relative positions of the bad range against all free maps", "anchors": [{"file": "foxxll/mng/disk_block_allocator.cpp", "symbols": ["add_free_region"]}]}
{"id": "C05", "title": "Allocation succeeds exactly when it should", "statement": "A request for a non-empty list of blocks on a disk with autogrow always succeeds; on a disk without autogrow it succeeds if and only if the summed size does not exceed free_bytes, and a refused request (bad_ext_alloc) changes nothing; every successful request returns as many pairwise disjoint blocks as asked, each of the asked size.", "quantifier": "every reachable state, every list of sizes", "why_tests_cant": "the divide-and-conquer path depends on the shape of the whole free map", "anchors": [{"file": "foxxll/mng/disk_block_allocator.hpp", "symbols": ["new_blocks"]}]}
{"id": "C06", "title": "A disk without autogrow never grows beyond its configured size", "statement": "If autogrow is off, total_bytes stays equal to the configured size through every allocate/free history.", "quantifier": "every allocate/free history", "why_tests_cant": "only fragmentation that leaves enough total but not enough contiguous space triggers it", "anchors": [{"file": "foxxll/mng/disk_block_allocator.hpp", "symbols": ["new_blocks", "grow_file"]}]}
{"id": "C07", "title": "Blocks allocated across several disks are disjoint and complete", "statement": "A successful multi-disk allocation fills every requested block identifier with a managed disk and an offset, keeps its size, and across the whole history no two live block identifiers of one disk overlap.", "quantifier": "every number of disks, every strategy (any function from index to disk), every history", "why_tests_cant": "strategy x fragmentation x sizes is unbounded", "anchors": [{"file": "foxxll/mng/block_manager.hpp", "symbols": ["block_manager::new_blocks", "delete_block"]}]}
{"id": "C08", "title": "Block placement honours the strategy and falls back only when necessary", "statement": "Each block goes to the disk chosen by the strategy if that disk has room for everything already assigned to it in this call plus the block; otherwise to the cyclically next disk with room; only if no disk has room it goes to the strategy's disk.", "quantifier": "every strategy, every per-disk free space, every list of sizes", "why_tests_cant": "product of disk states, strategies and sizes", "anchors": [{"file": "foxxll/mng/block_manager.hpp", "symbols": ["block_manager::new_blocks"]}, {"file": "foxxll/mng/disk_block_allocator.hpp", "symbols": ["has_available_space"]}]}
{"id": "C09", "title": "Allocation statistics equal what is really allocated", "statement": "current_allocation is the sum of sizes of live blocks, total_allocation the sum of all sizes ever allocated and maximum_allocation the maximum over time of current_allocation, whether blocks have compile-time or run-time size.", "quantifier": "every history mixing fixed-size and variable-size block identifiers", "why_tests_cant": "needs histories with variable-size blocks; drift accumulates silently", "anchors": [{"file": "foxxll/mng/block_manager.hpp", "symbols": ["delete_block", "current_allocation_", "maximum_allocation_"]}]}
{"id": "C10", "title": "A failed multi-disk allocation leaks nothing", "statement": "If allocating a list of blocks raises bad_ext_alloc, no space on any disk has been consumed and the statistics are unchanged.", "quantifier": "every number of disks, every fill state", "why_tests_cant": "failure must strike a later disk after an earlier one succeeded", "anchors": [{"file": "foxxll/mng/block_manager.hpp", "symbols": ["block_manager::new_blocks"]}]}
{"id": "C11", "title": "Allocation strategies stay in their disk range", "statement": "Every strategy (striping, simple random, fully random, random cyclic, their interleaved variants, offset adapter) constructed for a non-empty disk range [begin,end) maps every index to a disk in [begin,end).", "quantifier": "every index, range, random offset, permutation, number of runs", "why_tests_cant": "random choices and unbounded indices", "anchors": [{"file": "foxxll/mng/block_alloc_strategy.hpp", "symbols": ["striping", "simple_random", "random_cyclic", "fully_random", "offset_allocator"]}, {"file": "foxxll/mng/block_alloc_strategy_interleaved.hpp", "symbols": ["interleaved_striping", "interleaved_simple_random", "interleaved_random_cyclic"]}]}
{"id": "C12", "title": "Striping strategies balance perfectly", "statement": "For striping, simple random and random cyclic, any D consecutive indices (D = number of disks in the range) use every disk exactly once; the interleaved variants have the same guarantee for the consecutive blocks of each run.", "quantifier": "every start index, every D, every random offset/permutation, every number of runs", "why_tests_cant": "needs all windows and all permutations", "anchors": [{"file": "foxxll/mng/block_alloc_strategy.hpp", "symbols": ["striping", "simple_random", "random_cyclic"]}, {"file": "foxxll/mng/block_alloc_strategy_interleaved.hpp", "symbols": ["interleaved_random_cyclic"]}]}
{"id": "C13", "title": "The prefetch schedule is a permutation", "statement": "For a consumption sequence of L blocks on disks numbered at most D (or without device number) and m > 0 buffers, the computed prefetch order mentions every block index 0..L-1 exactly once and the simulation terminates.", "quantifier": "every L, D, m > 0, every disk assignment, every tie-breaking of the event queue", "why_tests_cant": "the event simulation visits states no bounded test enumerates", "anchors": [{"file": "foxxll/mng/async_schedule.cpp", "symbols": ["simulate_async_write", "compute_prefetch_schedule"]}]}
{"id": "C14", "title": "The prefetch schedule never deadlocks a consumer with m buffers", "statement": "In the computed order, fewer than m blocks that are consumed later are fetched before any given block; hence the block needed as the k-th one is among the first k+m fetched, so a prefetcher with m buffers always has the next block in flight.", "quantifier": "every L, D, m > 0, every disk assignment", "why_tests_cant": "deadlock needs a specific assignment; absence is a universal statement", "anchors": [{"file": "foxxll/mng/async_schedule.cpp", "symbols": ["simulate_async_write", "compute_prefetch_schedule"]}, {"file": "foxxll/mng/block_prefetcher.hpp", "symbols": ["block_prefetcher"]}]}
{"id": "C15", "title": "The prefetcher hands out the blocks in consumption order with the right contents", "statement": "Given a prefetch order that is a permutation, the k-th block obtained from the prefetcher is the k-th block of the consumption sequence and its buffer holds exactly that block's disk contents; a buffer is never refilled while the consumer holds it; each block is read once.", "quantifier": "every sequence, permutation, number of buffers and every order in which reads complete", "why_tests_cant": "I/O completion order is not controllable in tests", "anchors": [{"file": "foxxll/mng/block_prefetcher.hpp", "symbols": ["pull_block", "block_consumed", "wait"]}]}
{"id": "C16", "title": "Buffered output stream followed by input stream is the identity", "statement": "Elements written to a buffered output stream over a list of blocks and read back by a buffered input stream over the same blocks come back in the same order and unchanged; the reverse input stream over them delivers exactly the reverse.", "quantifier": "every element sequence filling whole blocks, every number of blocks, buffers, batch sizes", "why_tests_cant": "unbounded data and buffer geometry", "anchors": [{"file": "foxxll/mng/buf_ostream.hpp", "symbols": ["buf_ostream"]}, {"file": "foxxll/mng/buf_istream.hpp", "symbols": ["buf_istream"]}, {"file": "foxxll/mng/buf_istream_reverse.hpp", "symbols": ["buf_istream_reverse"]}]}
{"id": "C17", "title": "The buffered writer loses no block and never hands out a busy buffer", "statement": "Every block passed to write() is submitted to disk exactly once with the given block identifier (at the latest by flush or destruction), and a buffer handed out for filling is never one whose write is pending or batched.", "quantifier": "every sequence of get-free/write/flush calls, every completion order, every buffer count", "why_tests_cant": "completion order and buffer recycling interact", "anchors": [{"file": "foxxll/mng/buf_writer.hpp", "symbols": ["get_free_block", "write", "flush"]}]}
{"id": "C18", "title": "The buffered writer never blocks itself forever", "statement": "Asking the writer for a free buffer (or writing) always returns once pending I/O completes, for every combination of buffer count and batch size accepted by the constructor.", "quantifier": "every nwriteblocks, writebatchsize, every call history", "why_tests_cant": "needs the specific geometry batch size >= buffer count", "anchors": [{"file": "foxxll/mng/buf_writer.hpp", "symbols": ["buffered_writer", "get_free_block", "write"]}]}
{"id": "C19", "title": "Pools conserve their blocks", "statement": "For the write pool and the prefetch pool the reported size equals free plus busy blocks, changes only by resize/add/steal and by write (which hands the block over to the pool), no block is in two places, and steal/resize hand out only blocks that no I/O uses.", "quantifier": "every history of steal/add/write/hint/read/invalidate/resize and every I/O completion order", "why_tests_cant": "histories with overlapping hints, cancels and resizes", "anchors": [{"file": "foxxll/mng/write_pool.hpp", "symbols": ["write_pool"]}, {"file": "foxxll/mng/prefetch_pool.hpp", "symbols": ["prefetch_pool"]}]}
{"id": "C20", "title": "Read-your-writes through the read/write pool", "statement": "A read of a block through the read/write pool returns the data of the most recent write of that block through the pool, whatever hints, invalidations and re-writes happened in between and whatever I/O has completed.", "quantifier": "every history of write/hint/invalidate/read and every I/O completion order", "why_tests_cant": "races between pending writes, prefetches and hints", "anchors": [{"file": "foxxll/mng/read_write_pool.hpp", "symbols": ["write", "hint", "read", "invalidate"]}, {"file": "foxxll/mng/write_pool.hpp", "symbols": ["write", "steal_request", "has_request"]}, {"file": "foxxll/mng/prefetch_pool.hpp", "symbols": ["hint", "read", "invalidate"]}]}
{"id": "C21", "title": "Each submitted request is served or cancelled, exactly once, in FIFO order", "statement": "In the single-queue I/O worker, requests that are not cancelled are served exactly once in submission order, a cancelled request is never served, and cancel reports success iff the request had not been started.", "quantifier": "every interleaving of submitting, cancelling and serving threads", "why_tests_cant": "thread interleavings", "anchors": [{"file": "foxxll/io/request_queue_impl_1q.cpp", "symbols": ["add_request", "cancel_request", "worker"]}]}
{"id": "C22", "title": "Destroying an I/O queue completes all submitted requests", "statement": "When a queue is shut down after its last submission, every request submitted before is served before the worker terminates.", "quantifier": "every interleaving of the shutdown with the worker", "why_tests_cant": "depends on a window between two statements in another thread", "anchors": [{"file": "foxxll/io/request_queue_impl_worker.cpp", "symbols": ["stop_thread"]}, {"file": "foxxll/io/request_queue_impl_1q.cpp", "symbols": ["worker"]}, {"file": "foxxll/io/request_queue_impl_qwqr.cpp", "symbols": ["worker"]}]}
{"id": "C23", "title": "Reads observe earlier writes in the two-queue worker", "statement": "In the default read/write-queue worker, writes are served in submission order, reads are served in submission order, and a read submitted after a write (same thread) is served after that write.", "quantifier": "every interleaving of submitters, cancellers and worker", "why_tests_cant": "the phase flag race needs a particular three-thread interleaving", "anchors": [{"file": "foxxll/io/request_queue_impl_qwqr.cpp", "symbols": ["add_request", "cancel_request", "worker"]}]}
{"id": "C24", "title": "A request completes once: handler, waiters, file reference and state agree", "statement": "For each request the completion handler runs exactly once, with success=true iff it was served and false iff it was cancelled; wait() returns only after the handler has returned and the file reference is released; poll() never reports completion before that outcome is fixed.", "quantifier": "every interleaving of server, canceller, waiters, pollers", "why_tests_cant": "thread interleavings", "anchors": [{"file": "foxxll/io/request_with_state.cpp", "symbols": ["completed", "cancel", "wait", "poll"]}, {"file": "foxxll/io/serving_request.cpp", "symbols": ["serve"]}]}
{"id": "C25", "title": "A cancelled request does not run its completion handler", "statement": "If cancel() returns true, the completion handler of the request is not called (as the interface documents).", "quantifier": "every request with a handler, every schedule", "why_tests_cant": "documentation-level promise about a path tests exercise without looking at the handler", "anchors": [{"file": "foxxll/io/request_interface.hpp", "symbols": ["cancel"]}, {"file": "foxxll/io/request_with_state.cpp", "symbols": ["cancel"]}]}
{"id": "C26", "title": "No lost wake-up for waiters on any of several requests", "statement": "If a waiter registers on a request and is told it is not finished, the waiter's switch is turned on when the request finishes; so waiting for any of several requests returns once one of them finishes, whatever the timing.", "quantifier": "every interleaving of registration and completion", "why_tests_cant": "the race window is between poll and insert", "anchors": [{"file": "foxxll/io/request_with_waiters.cpp", "symbols": ["add_waiter", "notify_waiters"]}, {"file": "foxxll/io/request_operations.hpp", "symbols": ["wait_any"]}]}
{"id": "C27", "title": "Waiting for a switch returns only when it is on", "statement": "onoff_switch::wait_for_on returns only in a state where the switch has been turned on, and wait_for_off only where it has been turned off, under the condition variable contract of the language (which permits spurious wake-ups).", "quantifier": "every interleaving including spurious wake-ups", "why_tests_cant": "spurious wake-ups cannot be provoked by tests", "anchors": [{"file": "foxxll/common/onoff_switch.hpp", "symbols": ["wait_for_on", "wait_for_off"]}]}
{"id": "C28", "title": "Waiting for a shared state returns only in that state", "statement": "shared_state::wait_for returns only at a moment when the state equals the requested value, and a waiter whose value is set and kept is eventually released, under spurious wake-ups and any number of waiters for different values.", "quantifier": "every interleaving including spurious wake-ups", "why_tests_cant": "spurious wake-ups and notify ordering", "anchors": [{"file": "foxxll/common/shared_state.hpp", "symbols": ["set_to", "wait_for"]}]}
{"id": "C29", "title": "linuxaio keeps at most max_events operations in flight", "statement": "At any time the number of operations submitted to the kernel and not yet reaped does not exceed the negotiated number of events, and the three counters agree with the real numbers of waiting, free and posted operations.", "quantifier": "every interleaving of posting thread, waiting thread, submitters and kernel completions", "why_tests_cant": "kernel timing", "anchors": [{"file": "foxxll/io/linuxaio_queue.cpp", "symbols": ["post_requests", "wait_requests", "handle_events"]}]}
{"id": "C30", "title": "linuxaio negotiates its queue length downwards", "statement": "If the kernel refuses the desired queue length with EAGAIN, the constructor retries with fewer events until the kernel accepts or one event is refused.", "quantifier": "every kernel limit and desired length", "why_tests_cant": "kernel limits are not variable in tests", "anchors": [{"file": "foxxll/io/linuxaio_queue.cpp", "symbols": ["linuxaio_queue::linuxaio_queue"]}]}
{"id": "C31", "title": "Accounting for reaped linuxaio events never blocks", "statement": "Decreasing the posted counter after reaping events never blocks (as the code comments state), so posting and waiting thread never deadlock.", "quantifier": "every interleaving of both threads and every kernel EAGAIN pattern", "why_tests_cant": "needs EAGAIN from io_submit at a special moment", "anchors": [{"file": "foxxll/io/linuxaio_queue.cpp", "symbols": ["handle_events", "post_requests", "wait_requests"]}]}
{"id": "C32", "title": "Cancelling a posted linuxaio request accounts once", "statement": "When the kernel confirms a cancellation, the request is completed once, one event becomes free, and the posted counter drops by one.", "quantifier": "every state with a posted request", "why_tests_cant": "the kernel practically never confirms cancellation in tests", "anchors": [{"file": "foxxll/io/linuxaio_queue.cpp", "symbols": ["cancel_request", "handle_events"]}, {"file": "foxxll/io/linuxaio_request.cpp", "symbols": ["cancel_aio", "completed"]}]}
{"id": "C33", "title": "Synchronous file I/O is exact under every short read/write pattern", "statement": "Serving a write stores exactly the given bytes at the given offset and changes nothing else, and serving a read delivers the file's bytes (zero-filled beyond end of file if it starts inside), for every pattern of partial transfers by the OS; a transfer of <= 0 bytes raises io_error.", "quantifier": "every file content, offset, length and every sequence of partial counts", "why_tests_cant": "the OS decides the counts", "anchors": [{"file": "foxxll/io/syscall_file.cpp", "symbols": ["serve"]}]}
{"id": "C34", "title": "In-memory files behave like byte arrays", "statement": "For accesses within the current size, a read from an in-memory file returns the last bytes written at each position; set_size preserves the common prefix; accesses outside the size are out of contract and not checked.", "quantifier": "every history of write/read/resize", "why_tests_cant": "unbounded histories", "anchors": [{"file": "foxxll/io/memory_file.cpp", "symbols": ["serve", "set_size", "size"]}]}
{"id": "C35", "title": "File-per-block storage maps offsets to distinct files", "statement": "Different offsets of a file-per-block file never share an underlying file, so a read at an offset returns the last write at that offset regardless of other offsets; discarding one offset leaves all others intact.", "quantifier": "every 64-bit offset, every history", "why_tests_cant": "2^64 offsets", "anchors": [{"file": "foxxll/io/fileperblock_file.cpp", "symbols": ["filename_for_block", "serve", "discard"]}]}
{"id": "C36", "title": "Printing a disk configuration and parsing it back gives the same configuration", "statement": "For a disk configuration, the file I/O string printed for it is accepted by the parser and yields the same settings.", "quantifier": "every combination of options and values", "why_tests_cant": "option combinations and values are unbounded", "anchors": [{"file": "foxxll/mng/config.cpp", "symbols": ["parse_fileio", "fileio_string"]}]}
{"id": "C37", "title": "The disk configuration parser is total: a configuration or runtime_error", "statement": "Every disk line is either accepted or rejected with std::runtime_error; no other exception type and no out-of-range access occurs.", "quantifier": "every string", "why_tests_cant": "all strings", "anchors": [{"file": "foxxll/mng/config.cpp", "symbols": ["parse_line", "parse_fileio"]}]}
{"id": "C38", "title": "Regular and flash disk ranges partition the disks", "statement": "The regular range and the flash range are disjoint, cover all disks, and a disk is in the flash range iff it is marked flash, for disks from configuration files and programmatically added ones.", "quantifier": "every order of configuration calls and every number of disks", "why_tests_cant": "call-order combinations", "anchors": [{"file": "foxxll/mng/config.cpp", "symbols": ["add_disk", "initialize", "load_config_file", "regular_disk_range", "flash_range"]}]}
{"id": "C39", "title": "Automatically assigned device ids are fresh", "statement": "Device ids handed out automatically are pairwise distinct and different from all explicitly assigned ids registered before, and max_device_id is an upper bound of all ids used.", "quantifier": "every interleaving of automatic and explicit assignment", "why_tests_cant": "orders of explicit and automatic ids", "anchors": [{"file": "foxxll/mng/config.cpp", "symbols": ["next_device_id", "update_max_device_id", "get_max_device_id"]}, {"file": "foxxll/io/create_file.cpp", "symbols": ["create_file"]}]}
{"id": "C40", "title": "Per-file I/O time equals the sum of request durations", "statement": "Whenever no request of a file is running, its accumulated read (write) time equals the sum over all finished reads (writes) of finish minus start timestamp, and counts/bytes equal the number/bytes of started requests, whatever the overlap and the order in which concurrent events are recorded.", "quantifier": "every number of overlapping requests and every interleaving", "why_tests_cant": "overlap patterns", "anchors": [{"file": "foxxll/io/iostats.cpp", "symbols": ["file_stats::read_started", "read_finished", "write_started", "write_finished"]}]}
{"id": "C41", "title": "Parallel I/O time is the time during which at least one operation runs", "statement": "With events recorded in time order, the parallel read/write/I/O time equals the total length of the periods in which at least one operation was active, and never exceeds the serial sum nor the elapsed time.", "quantifier": "every overlap pattern", "why_tests_cant": "overlap patterns", "anchors": [{"file": "foxxll/io/iostats.cpp", "symbols": ["p_read_started", "p_read_finished", "p_write_started", "p_write_finished", "wait_started", "wait_finished"]}]}
{"id": "C42", "title": "Statistics are kept per device", "statement": "The statistics object obtained for a device id is the one of that device id: asking twice for one id gives the same object, different ids give different objects.", "quantifier": "every sequence of ids", "why_tests_cant": "order of ids matters", "anchors": [{"file": "foxxll/io/iostats.cpp", "symbols": ["stats::create_file_stats"]}]}
{"id": "C43", "title": "Statistics snapshots form a difference algebra", "statement": "For two snapshots (a earlier, b later) b - a holds for each device the activity in between, and a + (b - a) = b; devices that appear only in one snapshot are kept.", "quantifier": "every pair of snapshots", "why_tests_cant": "sets of devices and values unbounded", "anchors": [{"file": "foxxll/io/iostats.cpp", "symbols": ["stats_data::operator +", "stats_data::operator -", "file_stats_data::operator +", "file_stats_data::operator -"]}]}
{"id": "C44", "title": "40/48-bit integers compute modulo 2^40/2^48", "statement": "Conversion from and to 64-bit, increment, decrement, addition of the packed integer types agree with arithmetic modulo 2^40 (2^48), conversions of in-range values round-trip, and negative 32-bit ints convert as two's complement.", "quantifier": "all 2^40 / 2^48 values", "why_tests_cant": "value space too large", "anchors": [{"file": "foxxll/common/uint_types.hpp", "symbols": ["uint_pair"]}]}
{"id": "C45", "title": "40/48-bit integer comparisons agree with the numeric order", "statement": "==, !=, <, <=, >, >= on packed integers agree with the comparison of their 64-bit values; min/max values are the least/greatest.", "quantifier": "all pairs of values", "why_tests_cant": "2^80 pairs", "anchors": [{"file": "foxxll/common/uint_types.hpp", "symbols": ["operator <", "operator <=", "operator >", "operator =="]}]}
{"id": "C46", "title": "Aligned allocation returns an aligned, fully contained, recoverable block", "statement": "For every alignment, size and metadata size the returned address plus metadata is a multiple of the alignment, the user range lies in the malloc'ed buffer (also after shrinking it), the stored buffer pointer does not overlap the user range, and freeing recovers the original buffer address.", "quantifier": "every address returned by malloc, every alignment/size/meta", "why_tests_cant": "addresses are chosen by malloc", "anchors": [{"file": "foxxll/common/aligned_alloc.hpp", "symbols": ["aligned_alloc", "aligned_dealloc"]}]}
{"id": "C47", "title": "Typed blocks exactly fill their raw size", "statement": "For every raw size, element size, number of stored BIDs and metadata size accepted, the elements, BIDs, metadata and filler fit in the raw size and add up to it exactly; one more element would not fit.", "quantifier": "every size combination", "why_tests_cant": "template parameter space unbounded", "anchors": [{"file": "foxxll/mng/typed_block.hpp", "symbols": ["typed_block", "filler_struct", "block_w_info", "add_filler"]}]}
{"id": "C48", "title": "Integer helpers meet their specification", "statement": "div_ceil(n,d) is the least k with k*d >= n; round_up_to_power_of_two(n, p) is the least multiple of 2^p that is >= n (modulo the word size).", "quantifier": "all inputs without overflow", "why_tests_cant": "value space", "anchors": [{"file": "foxxll/common/utils.hpp", "symbols": ["div_ceil", "round_up_to_power_of_two", "longhash1"]}]}
{"id": "C49", "title": "The addressable FIFO queue is a FIFO with O(1) membership", "statement": "insert puts a key at the back (moving it if present) and reports whether it was new, erase removes exactly that key, top/pop give the least recently inserted remaining key, no key occurs twice.", "quantifier": "every operation history", "why_tests_cant": "histories", "anchors": [{"file": "foxxll/common/addressable_queues.hpp", "symbols": ["addressable_fifo_queue"]}]}
{"id": "C50", "title": "The addressable priority queue returns a minimum and tracks priority changes", "statement": "top/pop always give a key of minimal current priority, inserting an existing key changes its priority, erase removes it, each key occurs once.", "quantifier": "every operation history, every strict weak order on priorities", "why_tests_cant": "histories", "anchors": [{"file": "foxxll/common/addressable_queues.hpp", "symbols": ["addressable_priority_queue"]}]}
{"id": "C51", "title": "Swappable blocks keep their contents across evictions (online LRU)", "statement": "Through any history of acquire/release/deinitialize/initialize/extract/flush, acquiring a block returns the data it had at its last dirty release (or its external data), however many evictions took place; a block never released dirty keeps the default/external contents.", "quantifier": "every history obeying acquire/release pairing, every memory size", "why_tests_cant": "eviction patterns", "anchors": [{"file": "foxxll/mng/block_scheduler.hpp", "symbols": ["swappable_block", "block_scheduler", "block_scheduler_algorithm_online_lru"]}]}
{"id": "C52", "title": "The block scheduler never exceeds its internal memory and never loses a buffer", "statement": "At every time free, attached and never-allocated internal blocks add up to the maximum number of internal blocks, no internal block is attached to two swappable blocks, and acquire succeeds iff fewer than the maximum number of blocks are acquired (or the block is already internal).", "quantifier": "every history", "why_tests_cant": "histories", "anchors": [{"file": "foxxll/mng/block_scheduler.hpp", "symbols": ["get_free_internal_block", "return_free_internal_block", "block_scheduler_algorithm_online_lru"]}]}
{"id": "C53", "title": "Simulation mode predicts initialization status correctly", "statement": "Running an operation sequence in simulation mode reports for every block at every step the same is_initialized value as executing the sequence online, and records exactly the executed operations in order.", "quantifier": "every operation sequence obeying pairing", "why_tests_cant": "histories", "anchors": [{"file": "foxxll/mng/block_scheduler.hpp", "symbols": ["block_scheduler_algorithm_simulation"]}]}
{"id": "C54", "title": "Offline scheduling evicts the block needed furthest in the future", "statement": "With a recorded prediction sequence, the block evicted by the longest-forward-distance scheduler is one that is never acquired again if such exists among the evictable blocks, and otherwise one whose next acquire is latest.", "quantifier": "every prediction sequence", "why_tests_cant": "sequence space", "anchors": [{"file": "foxxll/mng/block_scheduler.hpp", "symbols": ["block_scheduler_algorithm_offline_lfd"]}]}
{"id": "C55", "title": "The key hash is collision free", "statement": "longhash1 maps distinct 64-bit keys to distinct values.", "quantifier": "all 2^64 keys", "why_tests_cant": "2^128 pairs", "anchors": [{"file": "foxxll/common/utils.hpp", "symbols": ["longhash1"]}]}
{"id": "C56", "title": "The memory-checking variant of aligned allocation is also safe", "statement": "With FOXXLL_WASTE_MORE_MEMORY_FOR_IMPROVED_ACCESS_AFTER_ALLOCATED_MEMORY_CHECKS the returned range is aligned and lies inside the block obtained from posix_memalign.", "quantifier": "every alignment, size, metadata size", "why_tests_cant": "depends on residues of sizes modulo the alignment; conditional compilation is rarely tested", "anchors": [{"file": "foxxll/common/aligned_alloc.hpp", "symbols": ["aligned_alloc"]}]}
{"id": "C57", "title": "Capacity accounting over all disks", "statement": "total_bytes() never falls below free_bytes() plus the bytes of the live blocks, and equals that sum as long as no allocation has failed.", "quantifier": "every number of disks, sizes, every history of allocate/delete calls, including failing ones", "why_tests_cant": "an accounting error shows only as slow drift over long histories on several disks", "anchors": [{"file": "foxxll/mng/block_manager.cpp", "symbols": ["total_bytes", "free_bytes"]}, {"file": "foxxll/mng/block_manager.hpp", "symbols": ["new_blocks", "delete_block"]}]}
{"id": "C58", "title": "wait_any leaves no registration behind", "statement": "When a call of wait_any is over, however it ended, its switch (a local variable) is registered at no request, so no later completion uses a destroyed switch.", "quantifier": "every interleaving of any number of calls and completions, including failing requests", "why_tests_cant": "use after scope of a stack object in another thread; shows only if an I/O error hits one request of a batch", "anchors": [{"file": "foxxll/io/request_operations.hpp", "symbols": ["wait_any"]}, {"file": "foxxll/io/request_with_waiters.cpp", "symbols": ["add_waiter", "delete_waiter", "notify_waiters"]}]}
{"id": "C59", "title": "wait_any returns a finished request", "statement": "If wait_any returns, the iterator returned points to a request of the range that is finished.", "quantifier": "every interleaving, including spurious wake-ups", "why_tests_cant": "needs a spurious wake-up at the right moment", "anchors": [{"file": "foxxll/io/request_operations.hpp", "symbols": ["wait_any"]}]}
{"id": "C60", "title": "A switch releases its waiters", "statement": "No thread sleeps in wait_for_on while the switch is on with no wake-up under way, nor in wait_for_off while it is off.", "quantifier": "every interleaving, any number of waiters", "why_tests_cant": "a lost wake-up between threads", "anchors": [{"file": "foxxll/common/onoff_switch.hpp", "symbols": ["on", "off", "wait_for_on", "wait_for_off"]}]}
{"id": "C61", "title": "The destructor of the linuxaio queue completes everything", "statement": "When the destructor of linuxaio_queue returns, every request added has been completed and no operation is left in the kernel; the destructor does return.", "quantifier": "every interleaving of destructor, posting thread, waiting thread and kernel", "why_tests_cant": "needs the destructor between two adjacent statements of a thread", "anchors": [{"file": "foxxll/io/linuxaio_queue.cpp", "symbols": ["~linuxaio_queue", "post_requests", "wait_requests"]}, {"file": "foxxll/io/request_queue_impl_worker.cpp", "symbols": ["stop_thread"]}]}
{"id": "C62", "title": "The linuxaio queue loses and duplicates nothing", "statement": "Every submitted request is at each moment in exactly one place (waiting list, batch, kernel, being completed, completed) and is completed at most once; no step is undefined behaviour.", "quantifier": "every interleaving, every kernel behaviour (partial batches, EAGAIN, any completion order)", "why_tests_cant": "interleavings with kernel behaviour that tests cannot provoke", "anchors": [{"file": "foxxll/io/linuxaio_queue.cpp", "symbols": ["add_request", "cancel_request", "post_requests", "handle_events", "wait_requests"]}]}
{"id": "C63", "title": "linuxaio reports I/O errors", "statement": "A linuxaio request for which the kernel reports an error or a short transfer is not completed as a success.", "quantifier": "every kernel result", "why_tests_cant": "needs failing hardware", "anchors": [{"file": "foxxll/io/linuxaio_queue.cpp", "symbols": ["handle_events"]}, {"file": "foxxll/io/linuxaio_request.cpp", "symbols": ["completed"]}]}
{"id": "C64", "title": "Memory-mapped files transfer exactly", "statement": "Serving a write through mmap_file stores exactly the given bytes at the given offset, and serving a read delivers the bytes of the file, like syscall_file.", "quantifier": "every file content, page size, offset and length", "why_tests_cant": "the end of the file inside or behind the last page is rarely exercised, and bytes lost there raise no error", "anchors": [{"file": "foxxll/io/mmap_file.cpp", "symbols": ["serve"]}]}
{"id": "C65", "title": "$$ in a disk path is replaced by the process id", "statement": "If the path of a configuration line contains $$, exactly these two characters (the first occurrence) are replaced by the process id; everything else of the path stays.", "quantifier": "every path", "why_tests_cant": "only noticed if the path continues behind $$ in a particular way", "anchors": [{"file": "foxxll/mng/config.cpp", "symbols": ["parse_line"]}]}
{"id": "C66", "title": "Parsing a line does not depend on the line parsed before", "statement": "parse_line sets all options: the result for a line is the same whatever the object contained.", "quantifier": "every line and every previous state of the object", "why_tests_cant": "tests use few combinations in one order", "anchors": [{"file": "foxxll/mng/config.cpp", "symbols": ["parse_line"]}]}
{"id": "C67", "title": "Waiting times are split into reads and writes", "statement": "When no thread waits, the total waiting time is the sum of the lengths of all waits, the read part that of waits for reads, the write part that of all other waits.", "quantifier": "every number of overlapping waits and every order of recording", "why_tests_cant": "needs concurrent waits and exact times", "anchors": [{"file": "foxxll/io/iostats.cpp", "symbols": ["stats::wait_started", "stats::wait_finished"]}]}
{"id": "C68", "title": "Scoped timers report balanced events", "statement": "Whatever start and stop calls are made on a scoped timer, after its destruction the calls reported to the statistics alternate between started and finished and end with finished.", "quantifier": "every sequence of calls", "why_tests_cant": "tests use the timers in one way", "anchors": [{"file": "foxxll/io/iostats.hpp", "symbols": ["scoped_read_write_timer", "scoped_write_timer", "scoped_read_timer", "scoped_wait_timer"]}]}
{"id": "C69", "title": "Every option word of a disk has its meaning", "statement": "Each spelling of an option sets its option to the value it names and changes nothing else; words restricted to some I/O implementations are refused for all others.", "quantifier": "every state of the disk_config object", "why_tests_cant": "tests try few spellings", "anchors": [{"file": "foxxll/mng/config.cpp", "symbols": ["disk_config::parse_fileio"]}]}
{"id": "C70", "title": "Numeric options take exactly numbers", "statement": "The text of a numeric option is accepted only if it is a decimal number, and then with its value.", "quantifier": "every text", "why_tests_cant": "unbounded set of texts", "anchors": [{"file": "foxxll/mng/config.cpp", "symbols": ["disk_config::parse_fileio"]}]}
{"id": "C71", "title": "Online scheduling evicts the least recently used block", "statement": "When acquire has to take the memory of another block, that block is not acquired, every other block in memory that is not acquired was released later, at most one block is evicted, and only if all internal memory is in use.", "quantifier": "every history of calls, every memory size", "why_tests_cant": "tests look at the data, not at the order of evictions over long histories", "anchors": [{"file": "foxxll/mng/block_scheduler.hpp", "symbols": ["block_scheduler_algorithm_online_lru", "block_scheduler_algorithm_online_lru::acquire", "block_scheduler_algorithm_online_lru::release"]}, {"file": "foxxll/common/addressable_queues.hpp", "symbols": ["addressable_fifo_queue"]}]}
{"id": "C72", "title": "Identifiers of swappable blocks are unique and small", "statement": "allocate_swappable_block returns the smallest identifier the client does not have; the block is uninitialized and not acquired. Identifiers the client has are always valid.", "quantifier": "every history of a client that uses only identifiers it has", "why_tests_cant": "needs all orders of allocating and freeing", "anchors": [{"file": "foxxll/mng/block_scheduler.hpp", "symbols": ["block_scheduler::allocate_swappable_block", "block_scheduler::free_swappable_block"]}]}
{"id": "C73", "title": "Flushing a block scheduler puts all idle data on disk", "statement": "flush always succeeds. Afterwards no block that is not acquired occupies internal memory, the external block of every such block holds its data, acquired blocks are untouched, and nothing a client can observe has changed.", "quantifier": "every history, every set of acquired blocks", "why_tests_cant": "depends on which blocks are dirty, clean or acquired", "anchors": [{"file": "foxxll/mng/block_scheduler.hpp", "symbols": ["block_scheduler::flush"]}]}
{"id": "C74", "title": "Switching the scheduling algorithm loses nothing", "statement": "Switching between online_lru and offline_lfd, also at the end of a prediction, keeps the evictable blocks: every call afterwards has the result the client expects, and online_lru evicts the blocks taken over in the order in which the algorithm before would have evicted them (falling priority, then smallest identifier).", "quantifier": "every state, every recorded sequence, every point of switching", "why_tests_cant": "tests switch at few points", "anchors": [{"file": "foxxll/mng/block_scheduler.hpp", "symbols": ["block_scheduler::switch_algorithm_to", "block_scheduler_algorithm_offline_lfd::release", "block_scheduler_algorithm_offline_lfd::init", "block_scheduler_algorithm_online_lru::init"]}]}
{"id": "C75", "title": "Direct I/O is used as configured", "statement": "A file created by create_file is opened with the access flags of its mode. If direct I/O is demanded it is opened with it or not at all; if it is only to be tried, it is opened without exactly when the build or the file system does not support it; otherwise it is opened without.", "quantifier": "every behaviour of the operating system, every mode, disk configuration, build option and I/O implementation", "why_tests_cant": "tests run on one file system of one build", "anchors": [{"file": "foxxll/io/ufs_file_base.cpp", "symbols": ["ufs_file_base::ufs_file_base"]}, {"file": "foxxll/io/create_file.cpp", "symbols": ["create_file"]}]}
{"id": "C76", "title": "A failed opening leaks no descriptor", "statement": "If create_file, or opening all disks, ends with an exception, no file descriptor opened on the way stays open; a file that is returned has exactly one.", "quantifier": "every combination of failing system calls", "why_tests_cant": "failures of fstat, fcntl, lseek, unlink are not provoked in tests", "anchors": [{"file": "foxxll/io/ufs_file_base.cpp", "symbols": ["ufs_file_base::ufs_file_base", "ufs_file_base::_after_open", "ufs_file_base::lock", "ufs_file_base::close"]}, {"file": "foxxll/io/create_file.cpp", "symbols": ["create_file"]}]}
{"id": "C77", "title": "Files are locked unless NO_LOCK is given", "statement": "Without NO_LOCK a file from create_file holds a lock for its whole life, exclusive unless it is read-only; with NO_LOCK it is not locked.", "quantifier": "every mode, I/O implementation and behaviour of the operating system", "why_tests_cant": "needs a second process", "anchors": [{"file": "foxxll/io/ufs_file_base.cpp", "symbols": ["ufs_file_base::lock", "ufs_file_base::_after_open"]}, {"file": "foxxll/io/create_file.cpp", "symbols": ["create_file"]}, {"file": "foxxll/io/file.hpp", "symbols": ["file::open_mode"]}]}
{"id": "C78", "title": "Device nodes are never removed or resized", "statement": "Opening a block device neither truncates nor unlinks it, and its node is not unlinked at the end of the program, whatever the options of the disk. A disk configured as raw device is used only if it is one.", "quantifier": "every disk configuration and behaviour of the operating system", "why_tests_cant": "tests have no block devices", "anchors": [{"file": "foxxll/io/create_file.cpp", "symbols": ["create_file"]}, {"file": "foxxll/io/ufs_file_base.cpp", "symbols": ["ufs_file_base::unlink", "ufs_file_base::close_remove", "ufs_file_base::_set_size"]}, {"file": "foxxll/mng/config.cpp", "symbols": ["config::~config"]}]}
{"id": "C79", "title": "Only own files are removed at exit", "statement": "At the end of the program exactly the files of the disks with the option delete are unlinked, each once, and only if this process has opened them.", "quantifier": "every configuration and behaviour of the operating system", "why_tests_cant": "happens after the end of main", "anchors": [{"file": "foxxll/mng/config.cpp", "symbols": ["config::~config", "config::load_default_config"]}]}
{"id": "C80", "title": "Alignment is checked exactly for direct I/O", "statement": "A file asks for the check of alignment of its requests (need_alignment) exactly if it was opened with O_DIRECT.", "quantifier": "every mode, build option and behaviour of the operating system", "why_tests_cant": "depends on the build and the file system", "anchors": [{"file": "foxxll/io/ufs_file_base.cpp", "symbols": ["ufs_file_base::ufs_file_base"]}, {"file": "foxxll/io/file.hpp", "symbols": ["file::need_alignment", "file::open_mode"]}]}
{"id": "C81", "title": "Requests reach a queue of their own type", "statement": "For all disks a configuration can name, every sequence of calls to disk_queues with the files of the disks succeeds: a request is put in the queue of its file, the queue is of the type the request needs, it holds exactly the requests submitted with its files and not canceled, in order, and canceling finds the request there.", "quantifier": "every configuration, every sequence of calls", "why_tests_cant": "tests use one type of file at a time", "anchors": [{"file": "foxxll/io/disk_queues.cpp", "symbols": ["disk_queues::make_queue", "disk_queues::add_request", "disk_queues::cancel_request", "disk_queues::get_queue"]}, {"file": "foxxll/io/create_file.cpp", "symbols": ["create_file"]}]}
{"id": "C82", "title": "Every disk has its own queue by default", "statement": "Disks without the option queue have a queue of their own each (shared with no other disk), a disk with the option the queue it names; linuxaio disks share one.", "quantifier": "every configuration", "why_tests_cant": "tests use one or two disks", "anchors": [{"file": "foxxll/mng/block_manager.cpp", "symbols": ["block_manager::block_manager"]}, {"file": "foxxll/mng/config.hpp", "symbols": ["disk_config::queue"]}, {"file": "foxxll/io/create_file.cpp", "symbols": ["create_file"]}]}
{"id": "C83", "title": "One object for each singleton", "statement": "All calls of get_instance of a singleton, from any threads, return the same completely constructed object; its constructor returns once in the program, and after an exception the next call constructs it again.", "quantifier": "every number of threads, every interleaving, constructors that use other singletons or throw", "why_tests_cant": "depends on the interleaving of the first calls", "anchors": [{"file": "foxxll/singleton.hpp", "symbols": ["singleton::get_instance", "singleton::create_instance"]}]}
{"id": "C84", "title": "Singletons are destroyed before those they use", "statement": "At the end of the program every singleton object is destroyed exactly once, and before the singletons its constructor asked for; no destructor uses a destroyed singleton.", "quantifier": "every number of threads, every interleaving", "why_tests_cant": "depends on the interleaving of the first calls; happens after the end of main", "anchors": [{"file": "foxxll/singleton.hpp", "symbols": ["singleton::create_instance", "singleton::destroy_instance"]}, {"file": "foxxll/common/exithandler.cpp", "symbols": ["register_exit_handler"]}, {"file": "foxxll/io/disk_queues.cpp", "symbols": ["disk_queues::disk_queues", "disk_queues::~disk_queues"]}]}
{"id": "C85", "title": "Creation of singletons never deadlocks", "statement": "If constructors do not depend on each other in a circle (those of the library do not), all calls of get_instance return after finitely many steps, also if constructors throw.", "quantifier": "every number of threads, every interleaving", "why_tests_cant": "depends on the interleaving of the first calls", "anchors": [{"file": "foxxll/singleton.hpp", "symbols": ["singleton::get_instance", "singleton::create_instance"]}, {"file": "foxxll/mng/block_manager.cpp", "symbols": ["block_manager::block_manager"]}, {"file": "foxxll/io/disk_queues.cpp", "symbols": ["disk_queues::disk_queues"]}]}
{"id": "C86", "title": "File-per-block disks are protected by a lock file", "statement": "create_file for a file-per-block disk returns only with a lock on <path>_fpb_lock; if another process holds that lock, create_file throws and the lock file is neither written, resized nor removed; the lock file is closed and removed when the file is destroyed.", "quantifier": "every mode, disk option, build option and result of the system calls", "why_tests_cant": "needs two processes", "anchors": [{"file": "foxxll/io/fileperblock_file.cpp", "symbols": ["fileperblock_file::lock", "fileperblock_file::~fileperblock_file"]}, {"file": "foxxll/io/ufs_file_base.cpp", "symbols": ["ufs_file_base::lock", "ufs_file_base::close_remove"]}, {"file": "foxxll/io/create_file.cpp", "symbols": ["create_file"]}]}
{"id": "C87", "title": "A timer shows the time it was running", "statement": "At any time, a timer shows the sum of the times between its starts and the following stops since the last reset, plus the running interval, plus the values of timers added to it.", "quantifier": "every sequence of start, stop, reset and addition with any time stamps", "why_tests_cant": "tests look at one or two intervals of real time", "anchors": [{"file": "foxxll/common/timer.hpp", "symbols": ["timer::start", "timer::stop", "timer::reset", "timer::seconds", "timer::operator +="]}]}
{"id": "C88", "title": "wait_all returns when all requests are finished", "statement": "When wait_all ends, every given request is finished: no thread uses it any more; it always ends if all requests get finished.", "quantifier": "every number of requests, order of completion and interleaving, I/O errors", "why_tests_cant": "depends on the order of completion; I/O errors", "anchors": [{"file": "foxxll/io/request_operations.hpp", "symbols": ["wait_all"]}, {"file": "foxxll/io/request_with_state.cpp", "symbols": ["request_with_state::wait"]}]}
{"id": "C89", "title": "poll_any finds a completed request", "statement": "poll_any never blocks; it returns a completed request if one of the given ones was completed when it was called (the first that is), and the end otherwise.", "quantifier": "every number of requests, order of completion and interleaving, I/O errors", "why_tests_cant": "depends on the interleaving; I/O errors", "anchors": [{"file": "foxxll/io/request_operations.hpp", "symbols": ["poll_any"]}, {"file": "foxxll/io/request_with_state.cpp", "symbols": ["request_with_state::poll"]}]}
{"id": "C90", "title": "cancel_all cancels what is queued and counts it", "statement": "cancel_all cancels exactly those given requests that no thread has taken from their queues; it returns their number, and none of them is served afterwards.", "quantifier": "every number of requests, every interleaving with the workers", "why_tests_cant": "depends on the interleaving with the workers", "anchors": [{"file": "foxxll/io/request_operations.hpp", "symbols": ["cancel_all"]}, {"file": "foxxll/io/request_with_state.cpp", "symbols": ["request_with_state::cancel"]}]}
{"id": "C91", "title": "Prefetching never loses the contents of swappable blocks", "statement": "With offline_lru_prefetching every call gives the client what it may expect: acquire gives the data last released (or those the block was initialized with), extract_external_block the block that holds them; the external blocks of the client stay unchanged. The same holds after the switch back to another algorithm.", "quantifier": "every recorded sequence, every memory size, every order and timing of the transfers and completion handlers", "why_tests_cant": "depends on the timing of the I/O threads relative to the client; few schedules are ever seen", "anchors": [{"file": "foxxll/mng/block_scheduler.hpp", "symbols": ["block_scheduler_algorithm_offline_lru_prefetching::schedule_read", "block_scheduler_algorithm_offline_lru_prefetching::try_interrupt_read", "block_scheduler_algorithm_offline_lru_prefetching::read_after_write", "block_scheduler_algorithm_offline_lru_prefetching::schedule_write", "block_scheduler_algorithm_offline_lru_prefetching::acquire", "block_scheduler_algorithm_offline_lru_prefetching::release", "block_scheduler_algorithm_offline_lru_prefetching::extract_external_block", "block_scheduler_algorithm_offline_lru_prefetching::deinit"]}]}
{"id": "C92", "title": "A client that follows the recorded sequence never fails an assertion", "statement": "With offline_lru_prefetching a client that executes the recorded calls in order never meets a failed assertion or undefined behaviour, except acquire of a block not in memory when all internal blocks are acquired; allocation of blocks, flush and the switch to another algorithm are possible at any time, and the sequence can be continued after flush.", "quantifier": "every recorded sequence, every memory size, every order and timing of the transfers and completion handlers", "why_tests_cant": "depends on the sequence and on the timing of the I/O threads", "anchors": [{"file": "foxxll/mng/block_scheduler.hpp", "symbols": ["block_scheduler_algorithm_offline_lru_prefetching::acquire", "block_scheduler_algorithm_offline_lru_prefetching::release", "block_scheduler_algorithm_offline_lru_prefetching::deinitialize", "block_scheduler_algorithm_offline_lru_prefetching::initialize", "block_scheduler_algorithm_offline_lru_prefetching::extract_external_block", "block_scheduler_algorithm_offline_lru_prefetching::schedule_next_operations", "block_scheduler::flush", "block_scheduler::allocate_swappable_block"]}]}
{"id": "C93", "title": "Concurrent transfers of the prefetching scheduler use different blocks", "statement": "Transfers under way at the same time use different internal and different external blocks, and no transfer uses the memory of an acquired block or a free internal block.", "quantifier": "every recorded sequence, every memory size, every order and timing of the transfers and completion handlers", "why_tests_cant": "a data race, invisible unless the timing is unlucky", "anchors": [{"file": "foxxll/mng/block_scheduler.hpp", "symbols": ["block_scheduler_algorithm_offline_lru_prefetching::schedule_read", "block_scheduler_algorithm_offline_lru_prefetching::schedule_write", "block_scheduler_algorithm_offline_lru_prefetching::schedule_next_operations", "block_scheduler_algorithm_offline_lru_prefetching::read_after_write"]}]}
{"id": "C94", "title": "Blocks to be acquired are prefetched", "statement": "A block with data whose next scheduled operation is acquire is in memory or being read, so acquire starts no transfer and the block is not evicted; for every other block with a scheduled acquire an internal block is attached or reserved.", "quantifier": "every recorded sequence, every memory size, every order and timing of the transfers and completion handlers", "why_tests_cant": "tests check data, not when transfers are started", "anchors": [{"file": "foxxll/mng/block_scheduler.hpp", "symbols": ["block_scheduler_algorithm_offline_lru_prefetching::schedule_next_operations", "block_scheduler_algorithm_offline_lru_prefetching::initialize", "block_scheduler_algorithm_offline_lru_prefetching::release", "block_scheduler_algorithm_offline_lru_prefetching::shall_keep_internal_block", "block_scheduler_algorithm_offline_lru_prefetching::shall_be_read"]}]}
{"id": "C95", "title": "Prefetching looks ahead as far as memory permits", "statement": "Between calls, the recorded operations are scheduled in order up to the first acquire that needs an internal block, and then all internal blocks are acquired, or attached to or reserved for blocks that scheduled operations use.", "quantifier": "every recorded sequence, every memory size, every order and timing of the transfers and completion handlers", "why_tests_cant": "tests check data, not how far the schedule goes", "anchors": [{"file": "foxxll/mng/block_scheduler.hpp", "symbols": ["block_scheduler_algorithm_offline_lru_prefetching::schedule_next_operations", "block_scheduler_algorithm_offline_lru_prefetching::release", "block_scheduler_algorithm_offline_lru_prefetching::deinitialize"]}]}
{"id": "C96", "title": "Prefetching loses no internal blocks", "statement": "The numbers of free, attached and reserved internal blocks and of those not yet allocated add up to the maximum.", "quantifier": "every recorded sequence, every memory size, every order and timing of the transfers and completion handlers", "why_tests_cant": "a lost internal block only reduces the cache", "anchors": [{"file": "foxxll/mng/block_scheduler.hpp", "symbols": ["block_scheduler_algorithm_offline_lru_prefetching::schedule_read", "block_scheduler_algorithm_offline_lru_prefetching::schedule_next_operations", "block_scheduler_algorithm_offline_lru_prefetching::get_ready_block", "block_scheduler_algorithm_offline_lru_prefetching::release", "block_scheduler_algorithm_offline_lru_prefetching::deinitialize", "block_scheduler_algorithm_offline_lru_prefetching::deinit"]}]}
{"id": "C97", "title": "Prefetching evicts the least recently used block", "statement": "offline_lru_prefetching evicts a block only if there is no free internal block, and of the evictable blocks not needed by scheduled operations the one that was released least recently.", "quantifier": "every recorded sequence and state", "why_tests_cant": "the choice is invisible in the results", "anchors": [{"file": "foxxll/mng/block_scheduler.hpp", "symbols": ["block_scheduler_algorithm_offline_lru_prefetching::schedule_next_operations", "pop_begin"]}]}
{"id": "C98", "title": "What is written to a block is read from it", "statement": "A read of a block that completes without error returns the data of the last write of this block that was submitted before it since the allocation of the block and not canceled (if that write did not fail); after all requests, the file of the disk holds at the place of every allocated block the data of the last such write. Other blocks, growth of the disk and deletion of blocks with pending writes do not matter.", "quantifier": "every number of disks and queues, both kinds of queue, every sequence of allocation, deletion, filling of buffers, reads, writes and cancellations by a client that does not reuse the buffer of a pending request nor submit overlapping requests the kind of queue does not order, every interleaving with the workers, every splitting of the transfers by the operating system", "why_tests_cant": "needs block manager, queues and files together under all interleavings; unit tests check them one at a time in few orders", "anchors": [{"file": "foxxll/mng/bid.hpp", "symbols": ["BID::read", "BID::write"]}, {"file": "foxxll/io/disk_queued_file.cpp", "symbols": ["disk_queued_file::aread", "disk_queued_file::awrite"]}, {"file": "foxxll/io/serving_request.cpp", "symbols": ["serving_request::serve"]}, {"file": "foxxll/io/syscall_file.cpp", "symbols": ["syscall_file::serve"]}, {"file": "foxxll/io/request_queue_impl_1q.cpp", "symbols": ["request_queue_impl_1q::worker", "request_queue_impl_1q::cancel_request"]}, {"file": "foxxll/io/request_queue_impl_qwqr.cpp", "symbols": ["request_queue_impl_qwqr::worker", "request_queue_impl_qwqr::cancel_request"]}, {"file": "foxxll/mng/block_manager.hpp", "symbols": ["block_manager::new_blocks_int", "block_manager::delete_block"]}, {"file": "foxxll/mng/disk_block_allocator.hpp", "symbols": ["disk_block_allocator::grow_file"]}]}
{"id": "C99", "title": "Summaries of measurements are right", "statement": "A summary over the files contains every device once with its value in ascending order, and its total, minimum, maximum, average and median are those of the values; the totals of all files are the sums over the files.", "quantifier": "every number of files, every values of the counters", "why_tests_cant": "needs large counters, unused devices or even numbers of devices", "anchors": [{"file": "foxxll/io/iostats.cpp", "symbols": ["stats_data::summary<T>::summary", "stats_data::fetch_sum", "stats_data::get_read_count_summary", "stats_data::get_read_speed_summary"]}]}
{"id": "C100", "title": "Warnings about slow disks and bad load balancing are right", "statement": "The report warns of slow disks iff some device is less than half as fast as another, naming the slow ones, and of bad load balancing iff some device has less than half of the load of another, naming the devices with least and most load; printing never reads beyond the lists.", "quantifier": "every number of files, every values of the counters", "why_tests_cant": "the text of the report is not tested", "anchors": [{"file": "foxxll/io/iostats.cpp", "symbols": ["stats_data::to_ostream", "stats_data::get_pread_speed_summary", "stats_data::get_pio_speed_summary"]}]}
{"id": "C101", "title": "The prefetch schedule is optimal", "statement": "If every disk fetches one block per step and the consumer needs no time, then a consumer that reads through the block prefetcher in the computed order has all blocks after as few steps as with any other order of the reads.", "quantifier": "every assignment of blocks to disks, every number of buffers", "why_tests_cant": "speed is not tested; optimality needs all orders", "anchors": [{"file": "foxxll/mng/async_schedule.cpp", "symbols": ["simulate_async_write", "compute_prefetch_schedule"]}, {"file": "foxxll/mng/async_schedule.hpp", "symbols": ["compute_prefetch_schedule"]}, {"file": "foxxll/mng/block_prefetcher.hpp", "symbols": ["block_prefetcher::block_prefetcher", "block_prefetcher::block_consumed"]}]}
{"id": "C102", "title": "benchmark_files verifies what it wrote", "statement": "The tool benchmark_files reports errors iff some word read differs from what the tool wrote to its place (or, if it only verifies, from the pattern with sector numbers): no false alarms on faithful files, and every wrong word makes it fail.", "quantifier": "every number of files, block size, batch size, pattern, range of offsets and behaviour of the files", "why_tests_cant": "needs huge or odd parameters and files that return wrong data; the tools have no tests", "anchors": [{"file": "tools/benchmark_files.cpp", "symbols": ["benchmark_files"]}]}
{"id": "C103", "title": "benchmark_files tests the whole range", "statement": "The tool benchmark_files processes every byte of the given range of each file and changes nothing else.", "quantifier": "every number of files, block size, batch size, range", "why_tests_cant": "the tools have no tests", "anchors": [{"file": "tools/benchmark_files.cpp", "symbols": ["benchmark_files"]}]}
{"id": "C104", "title": "create_files creates files of the requested size", "statement": "The tool create_files writes every byte of each file exactly once, from within its buffer, and the files have the given length.", "quantifier": "every number of files, every length", "why_tests_cant": "the tools have no tests", "anchors": [{"file": "tools/create_files.cpp", "symbols": ["create_files"]}]}
{"id": "C105", "title": "benchmark_disks_random accesses each block of its work set once", "statement": "The tool benchmark_disks_random accesses as many different blocks of the span as the given amount of work asks for, each once, in the announced number of batches of at most the given size; the array of requests is large enough.", "quantifier": "every span, block size, amount of work, batch size and allocation", "why_tests_cant": "the tools have no tests", "anchors": [{"file": "tools/benchmark_disks_random.cpp", "symbols": ["run_test"]}]}
{"id": "C106", "title": "benchmark_disks reports the amounts it transfers", "statement": "The tool benchmark_disks transfers the requested amount of data from the starting offset on and reports exactly the amount it transferred.", "quantifier": "every number of disks, size, offset, batch size and block size", "why_tests_cant": "the tools have no tests", "anchors": [{"file": "tools/benchmark_disks.cpp", "symbols": ["benchmark_disks_alloc"]}]}
{"id": "C107", "title": "benchmark_disks with striping loads the disks evenly", "statement": "With the allocation strategy striping, benchmark_disks distributes its blocks evenly over the disks.", "quantifier": "every number of disks and batch size", "why_tests_cant": "the tools have no tests", "anchors": [{"file": "tools/benchmark_disks.cpp", "symbols": ["benchmark_disks_alloc"]}, {"file": "foxxll/mng/block_manager.hpp", "symbols": ["block_manager::new_blocks"]}, {"file": "foxxll/mng/block_alloc_strategy.hpp", "symbols": ["striping"]}]}
{"id": "C108", "title": "No request waits forever", "statement": "While a request is queued only boundedly many requests submitted later are started before it.", "quantifier": "every order of submissions, cancellations and steps of the worker thread", "why_tests_cant": "needs a steady load of writes at the speed of the disk", "anchors": [{"file": "foxxll/io/request_queue_impl_qwqr.cpp", "symbols": ["request_queue_impl_qwqr::worker", "request_queue_impl_qwqr::add_request", "request_queue_impl_qwqr::set_priority_op"]}, {"file": "foxxll/io/request_queue_impl_1q.cpp", "symbols": ["request_queue_impl_1q::worker"]}]}
{"id": "C109", "title": "Exporting a block keeps its data", "statement": "When export_files returns, the file of the given name in the directory of the disk consists of the first bytes of the block, the file of the block is gone and all other files are as before; when it throws, the contents of the block are not lost.", "quantifier": "every prefix, offset, length, name, contents of the file system and failures of system calls", "why_tests_cant": "failing system calls and special names are not tested", "anchors": [{"file": "foxxll/io/fileperblock_file.cpp", "symbols": ["fileperblock_file::export_files", "fileperblock_file::filename_for_block"]}]}
{"id": "C110", "title": "Windows: a file is opened as the mode says", "statement": "The constructor of a file on Windows returns iff the file exists or CREAT is given and no call fails; then the file is open for what the mode allows, empty with TRUNC and with its old contents otherwise, locked unless NO_LOCK is given, without buffering if REQUIRE_DIRECT is given, and need_alignment tells whether it is without buffering; if the constructor throws, no handle stays open.", "quantifier": "every mode, build, state of the file and failures of calls", "why_tests_cant": "the tests run on Linux; failing calls are not tested", "anchors": [{"file": "foxxll/io/wfs_file_base.cpp", "symbols": ["open_file_impl", "wfs_file_base::wfs_file_base", "wfs_file_base::lock"]}, {"file": "foxxll/io/file.hpp", "symbols": ["file::open_mode"]}]}
{"id": "C111", "title": "Windows: set_size sets the size", "statement": "After set_size of a file open for writing on Windows, the file has the given size and its old contents up to it, and the object is open and locked as before; if set_size throws, the object is as before.", "quantifier": "every size, mode, sector size and failures of calls", "why_tests_cant": "the tests run on Linux; the sector size is a matter of the system", "anchors": [{"file": "foxxll/io/wfs_file_base.cpp", "symbols": ["wfs_file_base::set_size", "wfs_file_base::wfs_file_base", "wfs_file_base::_size"]}, {"file": "foxxll/io/wfs_file_base.hpp", "symbols": ["wfs_file_base::bytes_per_sector_"]}]}
{"id": "C112", "title": "Windows: transfers are complete", "statement": "As on Linux, a request on Windows that does not throw transfers exactly its bytes, reads beyond the end giving zeros; a request that throws changes nothing outside its range; requests throw only if a call fails or the read begins behind the end.", "quantifier": "every contents, offset, length and behaviour of the system", "why_tests_cant": "the tests run on Linux", "anchors": [{"file": "foxxll/io/wincall_file.cpp", "symbols": ["wincall_file::serve"]}, {"file": "foxxll/io/syscall_file.cpp", "symbols": ["syscall_file::serve"]}]}
{"id": "C113", "title": "Windows: close_remove removes the file", "statement": "When close_remove on Windows returns, the object has no handle and the file is gone; when it throws, nothing has changed.", "quantifier": "every state of file and object, failures of calls", "why_tests_cant": "the tests run on Linux", "anchors": [{"file": "foxxll/io/wfs_file_base.cpp", "symbols": ["wfs_file_base::close_remove", "wfs_file_base::close"]}]}
{"id": "C114", "title": "Exit handlers run once, in reverse order", "statement": "With FOXXLL_NON_DEFAULT_EXIT_HANDLER every registered exit handler is called exactly once by run_exit_handlers, in the reverse order of registration, also if handlers register further handlers or throw (as with atexit), and run_exit_handlers returns.", "quantifier": "every number of threads, every interleaving, every behaviour of handlers", "why_tests_cant": "needs another configuration and handlers that register handlers", "anchors": [{"file": "foxxll/common/exithandler.cpp", "symbols": ["register_exit_handler", "run_exit_handlers"]}, {"file": "foxxll/singleton.hpp", "symbols": ["singleton::create_instance"]}]}
{"id": "C115", "title": "Streams return what was written, down to the files", "statement": "If a client writes elements with buf_ostream and destroys the stream without an exception, the blocks of the files hold the elements in order; an input stream over the same blocks (buf_istream, or buf_istream_reverse over the reversed list) then delivers only elements that were written, in order (reversed), each once, until it is finished or an exception reports an error.", "quantifier": "every list of elements, number of blocks, buffers, disks and queues, every interleaving of client, workers and other clients, partial transfers and failures of the system", "why_tests_cant": "the tests write and read a few streams in a fixed environment and cannot choose when requests are served or fail", "anchors": [{"file": "foxxll/mng/buf_ostream.hpp", "symbols": ["buf_ostream::operator <<", "buf_ostream::~buf_ostream"]}, {"file": "foxxll/mng/buf_istream.hpp", "symbols": ["buf_istream::operator ++"]}, {"file": "foxxll/mng/buf_istream_reverse.hpp", "symbols": ["buf_istream_reverse::operator ++"]}, {"file": "foxxll/mng/buf_writer.hpp", "symbols": ["buffered_writer::write", "buffered_writer::get_free_block", "buffered_writer::flush"]}, {"file": "foxxll/mng/block_prefetcher.hpp", "symbols": ["block_prefetcher::block_consumed", "block_prefetcher::wait", "set_switch_handler"]}, {"file": "foxxll/io/serving_request.cpp", "symbols": ["serving_request::serve"]}, {"file": "foxxll/io/request_with_state.cpp", "symbols": ["request_with_state::completed", "request_with_state::wait"]}]}
{"id": "C116", "title": "Requests and files live as long as they are used", "statement": "In every execution of a client that deletes a file only when its requests are finished, nobody uses a deleted request, a null pointer or a deleted file, and no assertion fails; a request object exists as long as there are references to it and no longer, and is destroyed only when completed; a file counts exactly its unfinished requests and does not warn when it is deleted.", "quantifier": "every number of clients, requests, files and threads, copies of pointers, cancellation at any time, every interleaving", "why_tests_cant": "the races last a few instructions; leaks and lost counts are not noticed by the tests", "anchors": [{"file": "foxxll/io/request.cpp", "symbols": ["request::request", "request::release_file_reference", "request::io_type"]}, {"file": "foxxll/io/request_with_state.cpp", "symbols": ["request_with_state::~request_with_state", "request_with_state::cancel", "request_with_state::poll", "request_with_state::wait", "request_with_state::completed"]}, {"file": "foxxll/io/serving_request.cpp", "symbols": ["serving_request::serve"]}, {"file": "foxxll/io/file.hpp", "symbols": ["file::~file", "file::add_request_ref", "file::delete_request_ref"]}, {"file": "foxxll/io/linuxaio_request.cpp", "symbols": ["linuxaio_request::fill_control_block", "linuxaio_request::cancel", "linuxaio_request::completed"]}, {"file": "foxxll/io/linuxaio_queue.cpp", "symbols": ["linuxaio_queue::handle_events", "linuxaio_queue::cancel_request"]}, {"file": "foxxll/io/request_queue_impl_1q.cpp", "symbols": ["request_queue_impl_1q::add_request", "request_queue_impl_1q::cancel_request", "request_queue_impl_1q::worker"]}]}
{"id": "C117", "title": "Mutexes do not cause deadlocks", "statement": "In every interleaving of threads that call the library (from completion handlers, too) and of the threads of the queues no thread waits for itself through a chain of mutexes, and nobody waits for requests, events, semaphores or threads with a mutex locked.", "quantifier": "every number of threads, all functions that lock mutexes, every interleaving, handlers that call the library", "why_tests_cant": "a deadlock needs a rare interleaving; the tests use few threads and simple handlers", "anchors": [{"file": "foxxll/io/disk_queues.cpp", "symbols": ["disk_queues::~disk_queues", "disk_queues::add_request", "disk_queues::cancel_request", "disk_queues::make_queue"]}, {"file": "foxxll/io/request_queue_impl_qwqr.cpp", "symbols": ["request_queue_impl_qwqr::add_request", "request_queue_impl_qwqr::cancel_request", "request_queue_impl_qwqr::worker"]}, {"file": "foxxll/io/request_queue_impl_1q.cpp", "symbols": ["request_queue_impl_1q::add_request", "request_queue_impl_1q::cancel_request", "request_queue_impl_1q::worker"]}, {"file": "foxxll/io/linuxaio_queue.cpp", "symbols": ["linuxaio_queue::cancel_request", "linuxaio_queue::post_requests", "linuxaio_queue::handle_events"]}, {"file": "foxxll/io/request_with_state.cpp", "symbols": ["request_with_state::cancel", "request_with_state::completed", "request_with_state::poll"]}, {"file": "foxxll/io/request_with_waiters.cpp", "symbols": ["request_with_waiters::add_waiter", "request_with_waiters::notify_waiters"]}, {"file": "foxxll/singleton.hpp", "symbols": ["singleton::get_instance", "singleton::create_instance"]}, {"file": "foxxll/mng/block_manager.hpp", "symbols": ["block_manager::new_blocks", "block_manager::delete_block"]}, {"file": "foxxll/mng/disk_block_allocator.hpp", "symbols": ["disk_block_allocator::new_blocks", "disk_block_allocator::delete_block"]}, {"file": "foxxll/io/iostats.cpp", "symbols": ["file_stats::write_started", "stats::p_write_started"]}, {"file": "foxxll/io/fileperblock_file.cpp", "symbols": ["fileperblock_file::lock"]}, {"file": "foxxll/mng/block_manager.cpp", "symbols": ["block_manager::block_manager"]}]}
{"id": "C118", "title": "No data races", "statement": "In no interleaving of threads that call the library do two threads access the same data at the same time, one of them writing.", "quantifier": "every number of threads, all shared data that the library protects by mutexes or should, every interleaving", "why_tests_cant": "races last an instant and mostly have no visible effect", "anchors": [{"file": "foxxll/io/disk_queues.cpp", "symbols": ["disk_queues::~disk_queues", "disk_queues::add_request", "disk_queues::cancel_request", "disk_queues::make_queue"]}, {"file": "foxxll/io/request_queue_impl_qwqr.cpp", "symbols": ["request_queue_impl_qwqr::add_request", "request_queue_impl_qwqr::cancel_request", "request_queue_impl_qwqr::worker"]}, {"file": "foxxll/io/request_queue_impl_1q.cpp", "symbols": ["request_queue_impl_1q::add_request", "request_queue_impl_1q::cancel_request", "request_queue_impl_1q::worker"]}, {"file": "foxxll/io/linuxaio_queue.cpp", "symbols": ["linuxaio_queue::cancel_request", "linuxaio_queue::post_requests", "linuxaio_queue::handle_events"]}, {"file": "foxxll/io/request_with_state.cpp", "symbols": ["request_with_state::cancel", "request_with_state::completed", "request_with_state::poll"]}, {"file": "foxxll/io/request_with_waiters.cpp", "symbols": ["request_with_waiters::add_waiter", "request_with_waiters::notify_waiters"]}, {"file": "foxxll/singleton.hpp", "symbols": ["singleton::get_instance", "singleton::create_instance"]}, {"file": "foxxll/mng/block_manager.hpp", "symbols": ["block_manager::new_blocks", "block_manager::delete_block"]}, {"file": "foxxll/mng/disk_block_allocator.hpp", "symbols": ["disk_block_allocator::new_blocks", "disk_block_allocator::delete_block"]}, {"file": "foxxll/io/iostats.cpp", "symbols": ["file_stats::write_started", "stats::p_write_started"]}, {"file": "foxxll/io/iostats.hpp", "symbols": ["stats_data::stats_data", "file_stats_data::file_stats_data"]}, {"file": "foxxll/io/memory_file.cpp", "symbols": ["memory_file::size", "memory_file::set_size"]}, {"file": "foxxll/io/create_file.cpp", "symbols": ["create_file"]}, {"file": "foxxll/io/ufs_file_base.cpp", "symbols": ["ufs_file_base::size", "ufs_file_base::set_size", "ufs_file_base::close"]}]}
{"id": "C119", "title": "Allocation is safe for all 64-bit sizes", "statement": "For requests with any sizes that fit in 64 bits, an allocation that returns normally hands out blocks that are disjoint from each other, from all live blocks and from free space, and lie inside the disk and its file; otherwise it throws. No sum of sizes wraps unnoticed.", "quantifier": "every history of requests with block sizes between 1 and 2^64-1", "why_tests_cant": "overflows need sizes that no test can allocate", "anchors": [{"file": "foxxll/mng/disk_block_allocator.hpp", "symbols": ["disk_block_allocator::new_blocks", "disk_block_allocator::grow_file", "disk_block_allocator::~disk_block_allocator"]}, {"file": "foxxll/mng/disk_block_allocator.cpp", "symbols": ["disk_block_allocator::add_free_region"]}]}
{"id": "C120", "title": "A failed allocation on one disk loses nothing", "statement": "If new_blocks throws (bad_ext_alloc, or io_error because the file cannot be resized), every byte of the disk is still free or in a block that a user owns.", "quantifier": "every history, every behaviour of set_size", "why_tests_cant": "needs a full file system at the right moment", "anchors": [{"file": "foxxll/mng/disk_block_allocator.hpp", "symbols": ["disk_block_allocator::new_blocks", "disk_block_allocator::grow_file", "disk_block_allocator::~disk_block_allocator"]}, {"file": "foxxll/mng/disk_block_allocator.cpp", "symbols": ["disk_block_allocator::add_free_region"]}]}
{"id": "C121", "title": "Failures of I/O do not lose blocks of the pools", "statement": "Whatever requests fail, submissions throw or allocations fail, every block ever allocated is always in exactly one place (free or busy in one of the pools, with the client, deleted), and no block is free, deleted or in the hands of the client as an idle block while a request transfers it.", "quantifier": "every history of calls by a client that goes on after exceptions, every timing of completions and failures inside the calls", "why_tests_cant": "the pools are tested without failing I/O", "anchors": [{"file": "foxxll/mng/write_pool.hpp", "symbols": ["write_pool::steal", "write_pool::check_all_busy", "write_pool::write", "write_pool::resize"]}, {"file": "foxxll/mng/prefetch_pool.hpp", "symbols": ["prefetch_pool::hint", "prefetch_pool::read", "prefetch_pool::invalidate", "prefetch_pool::resize"]}, {"file": "foxxll/mng/read_write_pool.hpp", "symbols": ["read_write_pool::write"]}]}
{"id": "C122", "title": "The destructors of the pools wait for all requests and free all blocks", "statement": "As documented the destructors wait for completion of all ongoing requests of the pools and free all their memory; no exception leaves them.", "quantifier": "every reachable state, every order of completions, requests that fail before or while the destructor waits", "why_tests_cant": "needs failing requests during destruction; leaks are not observed by the tests", "anchors": [{"file": "foxxll/mng/write_pool.hpp", "symbols": ["write_pool::~write_pool"]}, {"file": "foxxll/mng/prefetch_pool.hpp", "symbols": ["prefetch_pool::~prefetch_pool"]}]}
{"id": "C123", "title": "The pools recover from a failed request", "statement": "An I/O error of a pooled block is reported by an exception of a call; afterwards the pool has its block back, and calls that do not concern the failed request work.", "quantifier": "every history with failed requests", "why_tests_cant": "needs failing requests; the tests have none for the pools", "anchors": [{"file": "foxxll/mng/write_pool.hpp", "symbols": ["write_pool::steal", "write_pool::get_free_block", "write_pool::check_all_busy"]}, {"file": "foxxll/mng/prefetch_pool.hpp", "symbols": ["prefetch_pool::invalidate", "prefetch_pool::read"]}, {"file": "foxxll/mng/read_write_pool.hpp", "symbols": ["read_write_pool::write"]}]}
{"id": "C124", "title": "The free counter of the prefetch pool is the length of its free list", "statement": "At all times free_blocks_size equals the number of elements of free_blocks, also after exceptions, and no method accesses an element of an empty list.", "quantifier": "every history, failing requests, submissions and allocations", "why_tests_cant": "needs allocations that fail", "anchors": [{"file": "foxxll/mng/prefetch_pool.hpp", "symbols": ["prefetch_pool::resize", "prefetch_pool::hint", "prefetch_pool::free_size", "prefetch_pool::size"]}]}
{"id": "C125", "title": "What is written to a block of a linuxaio disk is read from it", "statement": "With disks of type linuxaio, a read of a block that completes as a success delivers the data of the last write of the block made before it that was not canceled, and after that write has completed the file holds its data at the place of the block, whatever the kernel does with the operations in flight.", "quantifier": "every history of allocations, deletions, reads, writes and cancellations, any number of disks and queues, every interleaving of client, posting and waiting threads and kernel", "why_tests_cant": "the kernel's errors, partial transfers and reordering cannot be provoked by tests", "anchors": [{"file": "foxxll/io/linuxaio_queue.cpp", "symbols": ["linuxaio_queue::add_request", "linuxaio_queue::cancel_request", "linuxaio_queue::post_requests", "linuxaio_queue::handle_events", "linuxaio_queue::wait_requests"]}, {"file": "foxxll/io/linuxaio_request.cpp", "symbols": ["linuxaio_request::completed", "linuxaio_request::fill_control_block"]}, {"file": "foxxll/mng/write_pool.hpp", "symbols": ["write_pool::write"]}, {"file": "foxxll/mng/bid.hpp", "symbols": ["BID::read", "BID::write"]}]}
{"id": "C126", "title": "A write replaces the older versions of its block in the pools, and only these", "statement": "Whatever fails, the identifiers of the busy entries of each pool are distinct; after a write exactly one entry has its identifier and holds the new data; no call cancels a request other than one it makes obsolete, so that the latest version of every block accepted by the pool is written.", "quantifier": "every history of calls by a client that goes on after exceptions, every timing of completions, cancellations and failures", "why_tests_cant": "needs submissions that throw and exact timing of cancellations", "anchors": [{"file": "foxxll/mng/write_pool.hpp", "symbols": ["write_pool::write", "write_pool::steal_request"]}, {"file": "foxxll/mng/prefetch_pool.hpp", "symbols": ["prefetch_pool::invalidate", "prefetch_pool::hint"]}, {"file": "foxxll/mng/read_write_pool.hpp", "symbols": ["read_write_pool::write"]}]}
{"id": "C127", "title": "Blocks of aligned memory stay apart, keep their contents and are given back", "statement": "In every history of aligned allocations, deallocations and writes of a program to its blocks: a call ends with bad_alloc or a block that is aligned, lies in memory obtained from malloc and overlaps no other block nor a stored buffer pointer; no byte of a block changes except by the program's writes; deallocation frees exactly the memory of the block; when all blocks are deallocated, no memory is left allocated. The same for arrays from new_alloc::allocate of up to max_size() blocks.", "quantifier": "every sequence of calls and writes, every 64-bit size, every behaviour of malloc and realloc", "why_tests_cant": "huge sizes and realloc failures do not occur in tests, and overlaps go unnoticed", "anchors": [{"file": "foxxll/common/aligned_alloc.hpp", "symbols": ["aligned_alloc", "aligned_dealloc"]}, {"file": "foxxll/common/new_alloc.hpp", "symbols": ["new_alloc::allocate", "new_alloc::max_size"]}, {"file": "foxxll/mng/typed_block.hpp", "symbols": ["typed_block::operator new", "typed_block::operator new[]"]}]}
{"id": "C128", "title": "An input stream finds the disks of its blocks", "statement": "An input stream, forward or reverse, can be opened over any non-empty sequence of blocks, before or after other uses of the library; it delivers the elements of the blocks in order, never gets stuck, and uses no more buffers than two for each disk or the number given, whichever is more.", "quantifier": "every configuration history, every file holding the blocks, every number of buffers, every timing of the reads", "why_tests_cant": "needs files with unusual device ids or created early, and all timings", "anchors": [{"file": "foxxll/mng/buf_istream.hpp", "symbols": ["buf_istream::buf_istream"]}, {"file": "foxxll/mng/buf_istream_reverse.hpp", "symbols": ["buf_istream_reverse::buf_istream_reverse"]}, {"file": "foxxll/mng/async_schedule.hpp", "symbols": ["compute_prefetch_schedule"]}, {"file": "foxxll/mng/config.cpp", "symbols": ["config::initialize", "config::max_device_id", "config::update_max_device_id"]}]}
{"id": "C129", "title": "The configuration comes from the first existing file of the documented list", "statement": "Every initialisation of the configuration uses the first existing file of $STXXLCFG, ./.stxxl.$HOSTNAME, ./.stxxl, $HOME/.stxxl.$HOSTNAME, $HOME/.stxxl: the disks are exactly those of its lines that are neither empty nor comments, regular disks first, whether or not the last line ends with a newline; it throws if a line is faulty or there is no disk. Only if none of the files exists the default disk is used. An initialised configuration is not read again.", "quantifier": "every environment, every set of files with any contents, every history of calls", "why_tests_cant": "depends on environment variables and files outside of the tests, and on behaviour after exceptions", "anchors": [{"file": "foxxll/mng/config.cpp", "symbols": ["exist_file", "config::initialize", "config::find_config", "config::load_config_file", "config::load_default_config"]}]}
{"id": "C130", "title": "Reads through the read/write pool find what was written, down to the files", "statement": "With a read/write pool over blocks on the library's disks, every read of a block that has been waited for finds the content of the last write of the block through the pool before it (or what the file contained when the pool was created), unless a request of the pool failed; and when no request of the pool is pending, the files hold the contents last written.", "quantifier": "both kinds of queues, every history of calls of the pool, of other clients of the same disks and of the workers, cancellations of obsolete writes and prefetches at every moment, partial transfers", "why_tests_cant": "needs exact timing of cancellations against the worker of the disk", "anchors": [{"file": "foxxll/mng/read_write_pool.hpp", "symbols": ["read_write_pool::write", "read_write_pool::read", "read_write_pool::hint", "read_write_pool::invalidate"]}, {"file": "foxxll/mng/write_pool.hpp", "symbols": ["write_pool::write"]}, {"file": "foxxll/mng/prefetch_pool.hpp", "symbols": ["prefetch_pool::invalidate"]}, {"file": "foxxll/io/request_with_state.cpp", "symbols": ["request_with_state::cancel"]}, {"file": "foxxll/io/request_queue_impl_qwqr.cpp", "symbols": ["request_queue_impl_qwqr::cancel_request", "request_queue_impl_qwqr::worker"]}, {"file": "foxxll/io/request_queue_impl_1q.cpp", "symbols": ["request_queue_impl_1q::cancel_request", "request_queue_impl_1q::worker"]}]}
{"id": "C131", "title": "Destroying a block scheduler gives back its disk blocks", "statement": "The destructor of a block scheduler can be run at any time, with any algorithm. It deallocates the external blocks of all swappable blocks that are not acquired, leaves those of acquired blocks and those the client extracted allocated, and reports as many lost internal blocks as there are acquired blocks.", "quantifier": "every history of calls and switches of algorithm, every amount of internal memory, every progress of I/O of the prefetching algorithm", "why_tests_cant": "leaks of disk blocks are not visible in results; depends on the algorithm in use at the end", "anchors": [{"file": "foxxll/mng/block_scheduler.hpp", "symbols": ["block_scheduler::~block_scheduler", "swappable_block::deinitialize", "block_scheduler_algorithm_online_lru::~block_scheduler_algorithm_online_lru", "block_scheduler_algorithm_simulation::~block_scheduler_algorithm_simulation", "block_scheduler_algorithm_offline_lru_prefetching::~block_scheduler_algorithm_offline_lru_prefetching"]}]}
{"id": "C132", "title": "A program run again after its simulation gets the same identifiers", "statement": "When a sequence of calls is made in simulation mode and then again with another algorithm, allocate_swappable_block gives the same identifiers both times, every identifier is given out once until it is freed, and a block given out is blank.", "quantifier": "every history before the simulation, every sequence of calls in it", "why_tests_cant": "recorded sequences refer to blocks by identifier; wrong only for clients that free blocks from before the simulation", "anchors": [{"file": "foxxll/mng/block_scheduler.hpp", "symbols": ["block_scheduler::allocate_swappable_block", "block_scheduler::free_swappable_block", "block_scheduler_algorithm_simulation", "block_scheduler_algorithm_simulation::deinitialize"]}]}
{"id": "C133", "title": "Swappable blocks after failed calls", "statement": "When calls of the block scheduler throw because a request failed, no disk space is left or no memory is left, and the client goes on, taking the call for not made: every later call that does not throw has the same result as if the failed call had not been made; data released dirty are not lost without an exception on the block itself.", "quantifier": "every history of calls, every pattern of failing requests and allocations, every content left by failed requests, every time at which requests left behind are served", "why_tests_cant": "tests do not inject I/O errors, full disks or failing allocations", "anchors": [{"file": "foxxll/mng/block_scheduler.hpp", "symbols": ["swappable_block::clean_async", "swappable_block::clean_sync", "swappable_block::detach_internal_block", "swappable_block::read_sync", "block_scheduler::flush", "block_scheduler_algorithm_online_lru::acquire", "block_scheduler_algorithm_online_lru::extract_external_block", "block_scheduler_algorithm_offline_lfd::acquire"]}]}
{"id": "C134", "title": "Internal memory of the block scheduler after failed calls", "statement": "Whatever calls have thrown, the internal blocks that are free, attached to a swappable block or not yet allocated are together as many as the constructor computed; none is in two places; acquire works whenever fewer blocks are acquired than there is memory for; no internal block that a request in flight uses is free or given to another block, nor deallocated by the destructor.", "quantifier": "every history of calls, every pattern of failing requests and allocations", "why_tests_cant": "needs I/O errors, full disks or failing allocations at exact moments", "anchors": [{"file": "foxxll/mng/block_scheduler.hpp", "symbols": ["block_scheduler::get_free_internal_block", "block_scheduler::return_free_internal_block", "block_scheduler::flush", "block_scheduler::~block_scheduler", "block_scheduler_algorithm_online_lru::get_free_internal_block", "block_scheduler_algorithm_offline_lfd::get_free_internal_block"]}]}
{"id": "C135", "title": "Buffers of the benchmark tools live while they are used", "statement": "While a request of benchmark_disks, benchmark_disks_random, benchmark_files or create_files is in flight, its buffer is not freed and no other request in flight uses it.", "quantifier": "all numbers and sizes of batches, all orders of service, all patterns of failing requests and calls", "why_tests_cant": "needs a failing request with others in flight behind it; use of freed memory usually goes unnoticed", "anchors": [{"file": "tools/benchmark_disks.cpp", "symbols": ["benchmark_disks_alloc"]}, {"file": "tools/benchmark_disks_random.cpp", "symbols": ["run_test"]}, {"file": "tools/benchmark_files.cpp", "symbols": ["benchmark_files"]}, {"file": "tools/create_files.cpp", "symbols": ["create_files"]}, {"file": "foxxll/io/request_operations.hpp", "symbols": ["wait_all"]}]}
{"id": "C136", "title": "The exit code of foxxll_tool tells failures", "statement": "foxxll_tool calls the subtool named by its first argument with the further arguments and returns its exit code; the exit code is 0 only if the subtool was run and all its requests and checks succeeded.", "quantifier": "all command lines, all ends of the subtools", "why_tests_cant": "exit codes of failing runs are not looked at", "anchors": [{"file": "tools/foxxll_tool.cpp", "symbols": ["main", "main_usage", "subtools"]}, {"file": "tools/benchmark_files.cpp", "symbols": ["benchmark_files"]}, {"file": "tools/benchmark_disks.cpp", "symbols": ["benchmark_disks"]}]}
{"id": "C137", "title": "Version numbers are compared rightly", "statement": "check_library_version returns 0 exactly if headers and library have the same version, otherwise the number of the first component that differs; FOXXLL_VERSION_INTEGER has the order of the versions.", "quantifier": "all versions", "why_tests_cant": "only one version exists at a time", "anchors": [{"file": "foxxll/version.hpp", "symbols": ["FOXXLL_VERSION_INTEGER", "check_library_version", "print_library_version_mismatch"]}, {"file": "foxxll/common/version.cpp", "symbols": ["version_integer"]}]}
{"id": "C138", "title": "Swappable blocks keep their data through block manager, queues and files", "statement": "With the block scheduler on top of the block manager, the request queues with their workers, and the files: acquire gives an internal block that contains the data of the last dirty release (or the default content, or the content of the external block given to initialize), whatever was evicted, written and read in between and whatever other clients of the same disks do; extracted external blocks contain on disk what the block contained; the scheduler keeps the rules of requests, blocks and buffers, and loses no external block.", "quantifier": "every history of calls, both kinds of queues, every interleaving with the workers and with other clients of the disks, partial transfers, every choice of allocated blocks", "why_tests_cant": "races of evictions with the workers of the disks and with other clients; tests run one client at a time", "anchors": [{"file": "foxxll/mng/block_scheduler.hpp", "symbols": ["swappable_block::clean_async", "swappable_block::clean_sync", "swappable_block::read_sync", "swappable_block::fill_default", "swappable_block::extract_external_block", "block_scheduler::flush", "block_scheduler_algorithm_online_lru::acquire", "block_scheduler_algorithm_online_lru::release", "block_scheduler_algorithm_offline_lfd::acquire"]}, {"file": "foxxll/mng/block_manager.hpp", "symbols": ["block_manager::new_block", "block_manager::delete_block"]}, {"file": "foxxll/io/request_queue_impl_qwqr.cpp", "symbols": ["request_queue_impl_qwqr::add_request", "request_queue_impl_qwqr::worker"]}, {"file": "foxxll/io/request_queue_impl_1q.cpp", "symbols": ["request_queue_impl_1q::add_request", "request_queue_impl_1q::worker"]}]}
{"id": "C139", "title": "Block schedulers in different threads do not disturb each other", "statement": "Several block schedulers, each used by its own thread, share block manager, queues and disks. Whatever the interleaving, each client gets from its scheduler what it would get if this scheduler was the only one; schedulers share neither blocks nor buffers; and a call of one comes to its end even if the others make no steps.", "quantifier": "every number of schedulers, created at any time, every interleaving of their calls down to single requests, with the workers and other clients", "why_tests_cant": "tests use one scheduler at a time", "anchors": [{"file": "foxxll/mng/block_scheduler.hpp", "symbols": ["block_scheduler::block_scheduler", "swappable_block::get_external_block", "swappable_block::free_external_block", "swappable_block::clean_async", "swappable_block::read_sync", "block_scheduler::flush"]}, {"file": "foxxll/mng/block_manager.hpp", "symbols": ["block_manager::new_blocks_int", "block_manager::delete_block"]}]}
{"id": "C140", "title": "Blocks keep their data with files of every kind, and deleted blocks leave nothing behind", "statement": "With block manager, queues and files of any kind (syscall, mmap, memory, one file per block), where delete_block discards the region of the block in the file: a read of a block returns the data of the last write before it, whatever is discarded or allocated elsewhere; nothing is accessed outside of the memory or mapping of a file; requests fail only if the operating system does; with one file per block, files remain only for blocks that exist.", "quantifier": "every number of disks with files of any kinds, every history of allocations, deletions, transfers and cancellations, every interleaving with the workers, every behaviour of the operating system, every content of uninitialised memory", "why_tests_cant": "discarding has an effect only for the rarely used kinds of files, and races with requests in flight; tests delete blocks when all requests are done", "anchors": [{"file": "foxxll/mng/block_manager.hpp", "symbols": ["block_manager::delete_block", "block_manager::new_blocks"]}, {"file": "foxxll/io/file.hpp", "symbols": ["file::discard"]}, {"file": "foxxll/io/memory_file.cpp", "symbols": ["memory_file::serve", "memory_file::set_size", "memory_file::discard"]}, {"file": "foxxll/io/fileperblock_file.cpp", "symbols": ["fileperblock_file::serve", "fileperblock_file::discard"]}, {"file": "foxxll/io/mmap_file.cpp", "symbols": ["mmap_file::serve"]}]}
{"id": "C141", "title": "A queue that could not be created can be created later", "statement": "If the constructor of a request queue throws (no I/O context, no thread), disk_queues is as before the call: later calls create the queue, no other queue is disturbed, and nothing is lost. A block manager whose construction failed can be constructed again and then works.", "quantifier": "every sequence of calls, every pattern of failures of the operating system, every order of evaluation that the C++ standard permits", "why_tests_cant": "needs the limits of the operating system to be reached at exact moments and compilers with another order of evaluation", "anchors": [{"file": "foxxll/io/disk_queues.cpp", "symbols": ["disk_queues::make_queue", "disk_queues::add_request", "disk_queues::cancel_request", "disk_queues::get_queue", "disk_queues::set_priority_op"]}, {"file": "foxxll/io/linuxaio_queue.cpp", "symbols": ["linuxaio_queue::linuxaio_queue", "linuxaio_queue::~linuxaio_queue"]}, {"file": "foxxll/io/request_queue_impl_qwqr.cpp", "symbols": ["request_queue_impl_qwqr::request_queue_impl_qwqr"]}, {"file": "foxxll/mng/block_manager.cpp", "symbols": ["block_manager::block_manager"]}]}
{"id": "C142", "title": "Input streams report failed reads", "statement": "If the read of a block fails, buf_istream and buf_istream_reverse report it to the client by an exception before they deliver an element of this block; the elements delivered are those on disk, in order; the stream can be used further after an exception, and can be destroyed at any time.", "quantifier": "every sequence of blocks and prefetch order, every set of failing reads, every number of buffers, every interleaving with the I/O threads, every number of exceptions", "why_tests_cant": "tests never let a read fail, and the outcome depends on which of handler and state change of the request is seen first", "anchors": [{"file": "foxxll/mng/block_prefetcher.hpp", "symbols": ["set_switch_handler", "block_prefetcher::wait", "block_prefetcher::block_consumed", "block_prefetcher::~block_prefetcher"]}, {"file": "foxxll/mng/buf_istream.hpp", "symbols": ["buf_istream::operator ++", "buf_istream::~buf_istream"]}, {"file": "foxxll/mng/buf_istream_reverse.hpp", "symbols": ["buf_istream_reverse::operator ++"]}, {"file": "foxxll/io/request_with_state.cpp", "symbols": ["request_with_state::wait", "request_with_state::completed"]}, {"file": "foxxll/io/serving_request.cpp", "symbols": ["serving_request::serve"]}]}
{"id": "C143", "title": "Writers and output streams report failed writes", "statement": "If a write of buffered_writer or buf_ostream fails, the client gets an exception, at the latest by flush; if flush or the destructor returns normally, all blocks are stored; after an exception the writer or stream can be used further without damage to other blocks, and can be destroyed.", "quantifier": "every history of calls, every set of failing writes, every interleaving with the I/O threads, every number of buffers and batch size, every number of exceptions", "why_tests_cant": "tests never let a write fail; the effects need further calls after the exception and completions in certain orders", "anchors": [{"file": "foxxll/mng/buf_writer.hpp", "symbols": ["buffered_writer::get_free_block", "buffered_writer::write", "buffered_writer::flush", "buffered_writer::~buffered_writer"]}, {"file": "foxxll/mng/buf_ostream.hpp", "symbols": ["buf_ostream::operator <<", "buf_ostream::operator ++", "buf_ostream::flush"]}, {"file": "foxxll/io/request_operations.hpp", "symbols": ["wait_any"]}, {"file": "foxxll/io/request_with_state.cpp", "symbols": ["request_with_state::wait", "request_with_state::poll"]}]}
{"id": "C144", "title": "Scoped reports are complete and right", "statement": "A scoped_print_timer and a scoped_print_iostats announce their scope when they are constructed and report when it ends, a scoped_print_iostats also on report and final_report, after which it does not report at its end. Each report contains the time since the construction and, if a number of bytes was given, the bytes per second; reporting is always defined.", "quantifier": "every program with any number of objects of both classes, every number of bytes, every passage of time, including scopes shorter than the resolution of the clock", "why_tests_cant": "tests look at no output, and a scope shorter than a microsecond or a rate beyond 64 bits does not come up", "anchors": [{"file": "foxxll/common/timer.hpp", "symbols": ["scoped_print_timer::scoped_print_timer", "scoped_print_timer::~scoped_print_timer"]}, {"file": "foxxll/io/iostats.hpp", "symbols": ["scoped_print_iostats::scoped_print_iostats", "scoped_print_iostats::final_report", "scoped_print_iostats::~scoped_print_iostats"]}, {"file": "foxxll/io/iostats.cpp", "symbols": ["scoped_print_iostats::report"]}]}
{"id": "C145", "title": "Queries of the configuration are answered rightly, whichever comes first", "statement": "Each query function of config answers for the disks of the configuration, whether or not the configuration was used before: the number of disks, the ranges of regular and flash disks, path, size and implementation of each disk, and the sum of the sizes; a disk that does not exist is reported.", "quantifier": "every order of queries, every configuration file or list of added disks, every change of disks through disk(), with and without assertions, disks of any size", "why_tests_cant": "tests initialise the configuration first, are compiled with assertions, and use small disks", "anchors": [{"file": "foxxll/mng/config.cpp", "symbols": ["config::regular_disk_range", "config::flash_range", "config::disk", "config::disk_path", "config::disk_size", "config::disk_io_impl", "config::total_size"]}, {"file": "foxxll/mng/config.hpp", "symbols": ["config::disks_number", "config::check_initialized"]}]}
{"id": "C146", "title": "Default-constructed allocation strategies choose existing disks of the right kind", "statement": "An allocation strategy made by its default constructor answers with a disk of the configuration: any disk for striping, fully_random, simple_random and random_cyclic, a regular disk for random_cyclic_disk, a flash disk for random_cyclic_flash. If there is no such disk, an exception reports it.", "quantifier": "every configuration from files and added disks in every order, whether or not it was used before, every random number and permutation, with and without assertions", "why_tests_cant": "tests give the ranges explicitly or use configurations with regular disks from a file", "anchors": [{"file": "foxxll/mng/block_alloc_strategy.hpp", "symbols": ["striping::striping", "fully_random", "simple_random::init", "random_cyclic::init", "random_cyclic_disk::random_cyclic_disk", "random_cyclic_flash::random_cyclic_flash"]}, {"file": "foxxll/mng/config.cpp", "symbols": ["config::regular_disk_range", "config::flash_range", "config::add_disk", "config::initialize"]}, {"file": "foxxll/mng/block_manager.hpp", "symbols": ["block_manager::new_blocks_int"]}]}
{"id": "C147", "title": "The destructor of a block scheduler returns its blocks and its memory", "statement": "~block_scheduler returns the external block of every swappable block to the block manager, each once, while it is allocated and not being read; it returns no block of the client, whose blocks keep their contents; it needs no help of other threads; and no request uses the internal blocks that it deletes, so that the memory may be used again.", "quantifier": "every history of calls before, every interleaving of the destructor with the workers and with other clients of block manager and queues, who may get the returned space at once", "why_tests_cant": "tests end with all blocks released and do not look at the block manager afterwards; other clients allocating during the destructor need interleavings", "anchors": [{"file": "foxxll/mng/block_scheduler.hpp", "symbols": ["block_scheduler::~block_scheduler", "block_scheduler_algorithm_online_lru::~block_scheduler_algorithm_online_lru", "swappable_block::deinitialize", "swappable_block::free_external_block"]}, {"file": "foxxll/mng/block_manager.hpp", "symbols": ["block_manager::delete_block"]}]}
{"id": "C148", "title": "Members of typed blocks keep their values", "statement": "A value loaded from an element, BID or meta info of a typed block is the last one stored there, or the one that the block copied or read there had; storing it changes no other member, block or memory. Iteration from begin() to end() visits exactly the elements in order. has_only_data tells exactly whether there are no BIDs, meta info and filler, and whether the elements of all blocks of an array can be addressed as one array.", "quantifier": "every instantiation that compiles, every array of blocks, every program of loads, stores, copies and transfers, including overlapping places in the file", "why_tests_cant": "tests use a few instantiations; wrong offsets show only for combinations of sizes and alignments", "anchors": [{"file": "foxxll/mng/typed_block.hpp", "symbols": ["element_block::operator []", "element_block::begin", "element_block::end", "block_w_bids::operator ()", "block_w_info", "typed_block::has_only_data", "typed_block::write", "typed_block::read"]}, {"file": "foxxll/common/new_alloc.hpp", "symbols": ["new_alloc::construct"]}]}
{"id": "C149", "title": "Pools own their blocks, also when the memory is exhausted", "statement": "Each block made by a read_write_pool or passed to it is owned by exactly one list of one pool or by the client, until it is deleted; no request is under way on a block that is deleted. A call that fails because the memory is exhausted loses no block and leaves the pools usable. swap exchanges two pools entirely. When all pools are destroyed, all their blocks have been deleted.", "quantifier": "every number of pools, every history of construction, swap, destruction and all calls, every point of each call at which an allocation fails, every completion order and outcome of cancel", "why_tests_cant": "tests do not exhaust the memory; a lost block changes no result", "anchors": [{"file": "foxxll/mng/read_write_pool.hpp", "symbols": ["read_write_pool::read_write_pool", "read_write_pool::swap", "read_write_pool::~read_write_pool", "read_write_pool::write"]}, {"file": "foxxll/mng/write_pool.hpp", "symbols": ["write_pool::write_pool", "write_pool::write", "write_pool::steal", "write_pool::resize", "write_pool::check_all_busy", "write_pool::swap"]}, {"file": "foxxll/mng/prefetch_pool.hpp", "symbols": ["prefetch_pool::prefetch_pool", "prefetch_pool::hint", "prefetch_pool::invalidate", "prefetch_pool::read", "prefetch_pool::resize", "prefetch_pool::swap"]}]}
{"id": "C150", "title": "Busy blocks of a prefetch pool are found by their block identifiers", "statement": "The table of busy blocks, a hash table with bid_hash and operator == of BID, behaves as a finite map from block identifiers: find, operator [] and erase affect exactly the entry of the identifier given, also when other identifiers have the same hash and whenever the table is rehashed; iteration visits each entry once. The comparison used by Microsoft's compiler is a strict order whose equivalence is operator ==.", "quantifier": "every program of calls, every number of buckets and every rehashing, every width of size_t, all identifiers including those with equal hashes", "why_tests_cant": "tests use few blocks, whose hashes are all different", "anchors": [{"file": "foxxll/mng/prefetch_pool.hpp", "symbols": ["prefetch_pool::bid_hash", "prefetch_pool::busy_blocks", "prefetch_pool::hint", "prefetch_pool::invalidate", "prefetch_pool::read"]}, {"file": "foxxll/mng/bid.hpp", "symbols": ["BID::operator =="]}]}
{"id": "C151", "title": "Warnings of requests about lost references and alignment", "statement": "While a request is served, the library warns that a reference to the request is lost before or after the transfer exactly if nobody refers to the request any more; the warning itself uses no deleted request, null pointer or deleted file. The test of alignment names exactly those of offset, size and address that are not multiples of the block alignment.", "quantifier": "every interleaving of any number of clients, workers, cancellations and deletions of files, every use of pointers by the clients; all offsets, sizes and addresses", "why_tests_cant": "the warning depends on when a client drops its pointer relative to the worker, and is only text on the console", "anchors": [{"file": "foxxll/io/request.hpp", "symbols": ["request::check_nref", "BlockAlignment"]}, {"file": "foxxll/io/request.cpp", "symbols": ["request::check_nref_failed", "request::check_alignment"]}, {"file": "foxxll/io/serving_request.cpp", "symbols": ["serving_request::serve", "serving_request::serving_request"]}]}
{"id": "C152", "title": "A block manager that could not be constructed leaves nothing behind, and its destructor restores the files", "statement": "If the constructor of block_manager throws (a file cannot be opened, a queue or an allocator cannot be made, a file cannot be resized), everything that it made is given back, and a later attempt without failures gives what a first one would have given. The destructor gives back all files and allocators and leaves each file with its configured size, whatever was allocated in between.", "quantifier": "every number of disks and sizes below 2^64, every place of failure, every number of failed attempts, every history of allocations and deallocations on the disks with any failures of set_size", "why_tests_cant": "tests construct the manager once, with disks that work, and end the process before anyone looks at the files", "anchors": [{"file": "foxxll/mng/block_manager.cpp", "symbols": ["block_manager::block_manager", "block_manager::~block_manager"]}, {"file": "foxxll/mng/disk_block_allocator.hpp", "symbols": ["disk_block_allocator::disk_block_allocator", "disk_block_allocator::~disk_block_allocator", "disk_block_allocator::grow_file"]}, {"file": "foxxll/io/disk_queues.cpp", "symbols": ["disk_queues::make_queue"]}]}
{"id": "C153", "title": "A buffered writer whose writes fail does not block itself", "statement": "Whatever writes of a buffered_writer fail and however many exceptions the client has got, a call of get_free_block, write, flush or the destructor ends: the client thread takes only finitely many steps, waits only for requests in flight, and in the end returns, throws or is terminated.", "quantifier": "every number of buffers and batch size, every history of calls that keeps the protocol, every set of failing writes, every interleaving with the I/O threads", "why_tests_cant": "tests have no failing writes, and a deadlock needs a particular number of batched, busy and lost buffers", "anchors": [{"file": "foxxll/mng/buf_writer.hpp", "symbols": ["buffered_writer::get_free_block", "buffered_writer::write", "buffered_writer::flush", "buffered_writer::~buffered_writer"]}, {"file": "foxxll/io/request_operations.hpp", "symbols": ["wait_any"]}]}
{"id": "C154", "title": "The compile-time SWITCH selects the case of the tag", "statement": "SWITCH<Tag, Cases>::type is the type of the case that has the tag; if no case has it, the type of the case DEFAULT; if there is none either, NilCase. DEFAULT is the smallest int.", "quantifier": "every tag, every chain of cases of any length and order", "why_tests_cant": "each use is one instantiation at compile time; nothing tests other chains, and a wrong order selects another type without any message", "anchors": [{"file": "foxxll/common/tmeta.hpp", "symbols": ["DEFAULT", "CASE", "SWITCH"]}]}
{"id": "C155", "title": "Helpers for arrays, containers and texts do what their names say", "statement": "swap_1D_arrays exchanges the contents of two arrays and changes nothing else; pop, pop_front, pop_back and pop_begin take exactly the element they return, in the order of the container; the texts that to_str makes of 64-bit integers are read back by atoi64 and atouint64, and other texts are not taken for numbers.", "quantifier": "all arrays and positions, all containers and numbers of calls, all 64-bit integers", "why_tests_cant": "only small cases are tested, if any; overlap, empty containers and the ends of the ranges of integers are not", "anchors": [{"file": "foxxll/common/utils.hpp", "symbols": ["swap_1D_arrays", "pop", "pop_front", "pop_back", "pop_begin", "to_str", "atoi64", "atouint64"]}]}
{"id": "C156", "title": "Streams whose reads fail do not block", "statement": "Whatever reads of a buf_istream or buf_istream_reverse fail and however many exceptions the client has got, a call of ++ ends after finitely many steps of the threads, by returning or with an exception, without undefined behaviour; an assert fails only beyond the end of the stream.", "quantifier": "every number of blocks, buffers and elements, both directions, every set of failing reads and what they leave in the buffers, every interleaving with the I/O threads", "why_tests_cant": "tests have no failing reads, and a deadlock depends on the order of prefetching and on the interleaving", "anchors": [{"file": "foxxll/mng/buf_istream.hpp", "symbols": ["buf_istream::operator ++"]}, {"file": "foxxll/mng/buf_istream_reverse.hpp", "symbols": ["buf_istream_reverse::operator ++"]}, {"file": "foxxll/mng/block_prefetcher.hpp", "symbols": ["block_prefetcher::block_consumed", "block_prefetcher::wait"]}]}
{"id": "C157", "title": "An output stream whose writes fail does not block", "statement": "Whatever writes of a buf_ostream fail, in whatever order, however many exceptions the client has got and whatever it has called after them: the constructor, every call and the destructor end after finitely many steps of the threads, by returning, with an exception, by termination of the program or, only after an exception, with undefined behaviour; at no point does the thread wait for ever.", "quantifier": "every number of buffers and blocks, every sequence of calls, every set and order of completions and failures, every interleaving with the I/O threads", "why_tests_cant": "tests have no failing writes; after an exception the stream passes the writer a block that it does not own, so its later behaviour is outside any protocol that tests could exercise", "anchors": [{"file": "foxxll/mng/buf_ostream.hpp", "symbols": ["buf_ostream::operator ++", "buf_ostream::fill", "buf_ostream::~buf_ostream"]}, {"file": "foxxll/mng/buf_writer.hpp", "symbols": ["buffered_writer::get_free_block", "buffered_writer::write", "buffered_writer::flush"]}]}
