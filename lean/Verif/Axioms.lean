/-
Axioms used by every property theorem; the build prints them.  Expected: at most
`propext`, `Classical.choice`, `Quot.sound`.
-/
import Verif.Props.Alloc
import Verif.Props.Manager
import Verif.Props.Strategy
import Verif.Props.UIntPair
import Verif.Props.Arith
import Verif.Props.AddrQueue
import Verif.Props.AsyncSchedule
import Verif.Props.Prefetcher
import Verif.Props.BufWriter
import Verif.Props.Streams
import Verif.Props.Pools
import Verif.Props.Queues
import Verif.Props.Requests
import Verif.Props.Switches
import Verif.Props.WaitAny
import Verif.Props.Linuxaio
import Verif.Props.Files
import Verif.Props.Config
import Verif.Props.Iostats
import Verif.Props.ConfigOptions
import Verif.Props.BlockScheduler
import Verif.Props.BlockSchedulerPolicy
import Verif.Props.OpenFile
import Verif.Props.DiskQueues
import Verif.Props.Singleton
import Verif.Props.Timer
import Verif.Props.RequestOps
import Verif.Props.Ahead
import Verif.Props.Store
import Verif.Props.Summary
import Verif.Props.Steps
import Verif.Props.FileBench
import Verif.Props.DiskBench
import Verif.Props.QueueFair
import Verif.Props.FileExport
import Verif.Props.WinFile
import Verif.Props.ExitHandler
import Verif.Props.StreamStore
import Verif.Props.Lifetime
import Verif.Props.Locks
import Verif.Props.Alloc64
import Verif.Props.PoolFail
import Verif.Props.AioStore
import Verif.Props.PoolFail2
import Verif.Props.AlignedHeap
import Verif.Props.StreamOpen
import Verif.Props.FindConfig
import Verif.Props.PoolStore
import Verif.Props.SchedEnd
import Verif.Props.SwapFail
import Verif.Props.Tools
import Verif.Props.SwapStore
import Verif.Props.SwapWorld
import Verif.Props.DevStore
import Verif.Props.QueueSetup
import Verif.Props.StreamFail
import Verif.Props.WriterFail
import Verif.Props.Reports
import Verif.Props.ConfigQuery
import Verif.Props.StrategyConfig
import Verif.Props.SwapDestroy
import Verif.Props.BlockElems
import Verif.Props.PoolMem
import Verif.Props.BidHash
import Verif.Props.NrefCheck
import Verif.Props.ManagerLife
import Verif.Props.SwapAgree
import Verif.Props.WriterAlive
import Verif.Props.Helpers
import Verif.Props.StreamAlive
import Verif.Props.AlignedAgree
import Verif.Props.OStreamAlive
import Verif.Props.PoolFailAgree
import Verif.Props.PoolStealAgree

#print axioms Foxxll.Alloc.C01_live_blocks_disjoint
#print axioms Foxxll.Alloc.C01_partition
#print axioms Foxxll.Alloc.C02_accounting
#print axioms Foxxll.Alloc.C03_coalesced
#print axioms Foxxll.Alloc.C03_all_freed
#print axioms Foxxll.Alloc.C03_empty_disk_serves
#print axioms Foxxll.Alloc.C04_double_free_rejected
#print axioms Foxxll.Alloc.C04_second_free_rejected
#print axioms Foxxll.Alloc.C04_accepts_iff
#print axioms Foxxll.Alloc.C05_alloc_iff
#print axioms Foxxll.Alloc.C06_false
#print axioms Foxxll.Alloc.C06_no_growth_partial
#print axioms Foxxll.Mgr.C07_live_disjoint
#print axioms Foxxll.Mgr.C07_complete
#print axioms Foxxll.Mgr.C08_placement
#print axioms Foxxll.Mgr.C09_false
#print axioms Foxxll.Mgr.C09_statistics_partial
#print axioms Foxxll.Mgr.C10_false
#print axioms Foxxll.Mgr.C10_fails_only_if_partial
#print axioms Foxxll.Mgr.C10_no_leak_partial
#print axioms Foxxll.Summary.C100_false
#print axioms Foxxll.Summary.C100_false_writing
#print axioms Foxxll.Summary.C100_partial
#print axioms Foxxll.Summary.C100_load
#print axioms Foxxll.Sched.C101_false
#print axioms Foxxll.Sched.C101_false_short
#print axioms Foxxll.Sched.C101_optimum
#print axioms Foxxll.Sched.C101_load
#print axioms Foxxll.Sched.C101_steps
#print axioms Foxxll.Sched.C101_partial
#print axioms Foxxll.Sched.C101_all_buffered
#print axioms Foxxll.Sched.C101_one_disk
#print axioms Foxxll.FileBench.C102_false_far
#print axioms Foxxll.FileBench.C102_false_sector
#print axioms Foxxll.FileBench.C102_false_hidden
#print axioms Foxxll.FileBench.C102_false_again
#print axioms Foxxll.FileBench.C102_false_skipped
#print axioms Foxxll.FileBench.C102_partial
#print axioms Foxxll.FileBench.C102_detects_partial
#print axioms Foxxll.FileBench.C102_content
#print axioms Foxxll.FileBench.C102_verify
#print axioms Foxxll.FileBench.C102_later_partial
#print axioms Foxxll.FileBench.C102_reports_partial
#print axioms Foxxll.FileBench.C103_false
#print axioms Foxxll.FileBench.C103_partial
#print axioms Foxxll.FileBench.C104_false
#print axioms Foxxll.FileBench.C104_partial
#print axioms Foxxll.DiskBench.C105_false
#print axioms Foxxll.DiskBench.C105_partial
#print axioms Foxxll.DiskBench.C106_false
#print axioms Foxxll.DiskBench.C106_false_offset
#print axioms Foxxll.DiskBench.C106_partial
#print axioms Foxxll.DiskBench.C107_false
#print axioms Foxxll.DiskBench.C107_partial
#print axioms Foxxll.Queue.C108_false
#print axioms Foxxll.Queue.C108_partial
#print axioms Foxxll.Queue.C108_one_partial
#print axioms Foxxll.Files.C109_false
#print axioms Foxxll.Files.C109_false_self
#print axioms Foxxll.Files.C109_partial
#print axioms Foxxll.Files.C109_place
#print axioms Foxxll.Strategy.C11_in_range
#print axioms Foxxll.Strategy.C11_offset
#print axioms Foxxll.Win.C110_false_missing
#print axioms Foxxll.Win.C110_false_creat
#print axioms Foxxll.Win.C110_false_require
#print axioms Foxxll.Win.C110_false_invalid
#print axioms Foxxll.Win.C110_false_align
#print axioms Foxxll.Win.C110_false_leak
#print axioms Foxxll.Win.C110_partial
#print axioms Foxxll.Win.C110_returns_partial
#print axioms Foxxll.Win.C110_throws_partial
#print axioms Foxxll.Win.C111_false
#print axioms Foxxll.Win.C111_false_lock
#print axioms Foxxll.Win.C111_false_closed
#print axioms Foxxll.Win.C111_partial
#print axioms Foxxll.Win.C111_throws_partial
#print axioms Foxxll.Win.C112_false
#print axioms Foxxll.Win.C112_false_large
#print axioms Foxxll.Win.C112_read_partial
#print axioms Foxxll.Win.C112_write_partial
#print axioms Foxxll.Win.C112_roundtrip
#print axioms Foxxll.Win.C112_returns_partial
#print axioms Foxxll.Win.C113_false
#print axioms Foxxll.Win.C113_partial
#print axioms Foxxll.Exit.C114_false
#print axioms Foxxll.Exit.C114_false_throw
#print axioms Foxxll.Exit.C114_partial
#print axioms Foxxll.Exit.C114_once_partial
#print axioms Foxxll.Exit.C114_progress_partial
#print axioms Foxxll.Exit.C114_run_partial
#print axioms Foxxll.E2E.C115_false
#print axioms Foxxll.E2E.C115_output
#print axioms Foxxll.E2E.C115_input_partial
#print axioms Foxxll.E2E.C115_partial
#print axioms Foxxll.Life.C116_false
#print axioms Foxxll.Life.C116_false_type
#print axioms Foxxll.Life.C116_false_poll
#print axioms Foxxll.Life.C116_false_refused
#print axioms Foxxll.Life.C116_false_leak
#print axioms Foxxll.Life.C116_partial
#print axioms Foxxll.Life.C116_alive
#print axioms Foxxll.Life.C116_destroyed
#print axioms Foxxll.Life.C116_file
#print axioms Foxxll.Locks.C117_false
#print axioms Foxxll.Locks.C117_false_destructor
#print axioms Foxxll.Locks.C117_false_manager
#print axioms Foxxll.Locks.C117_false_cancel
#print axioms Foxxll.Locks.C117_partial
#print axioms Foxxll.Locks.C117_cycle_partial
#print axioms Foxxll.Locks.C118_false
#print axioms Foxxll.Locks.C118_false_file
#print axioms Foxxll.Locks.C118_false_error
#print axioms Foxxll.Locks.C118_false_singleton
#print axioms Foxxll.Locks.C118_false_device
#print axioms Foxxll.Locks.C118_false_memory
#print axioms Foxxll.Locks.C118_partial
#print axioms Foxxll.Locks.C118_write_partial
#print axioms Foxxll.Alloc64.C119_false
#print axioms Foxxll.Alloc64.C119_overlap_false
#print axioms Foxxll.Alloc64.C119_live_blocks_partial
#print axioms Foxxll.Alloc64.C119_agrees_partial
#print axioms Foxxll.Alloc64.C119_free_partial
#print axioms Foxxll.Strategy.C12_balanced
#print axioms Foxxll.Alloc64.C120_false
#print axioms Foxxll.Alloc64.C120_uniform_partial
#print axioms Foxxll.Alloc64.C120_only_io_partial
#print axioms Foxxll.Alloc64.C120_destructor_partial
#print axioms Foxxll.PoolFail.C121_false
#print axioms Foxxll.PoolFail.C121_hint_false
#print axioms Foxxll.PoolFail.C121_partial
#print axioms Foxxll.PoolFail.C121_lost_partial
#print axioms Foxxll.PoolFail.C121_clean_partial
#print axioms Foxxll.PoolFail.C121_agree
#print axioms Foxxll.PoolFail.C121_agree_write
#print axioms Foxxll.PoolFail.C121_agree_invalidate
#print axioms Foxxll.PoolFail.C121_agree_steal
#print axioms Foxxll.PoolFail.C121_agree_init
#print axioms Foxxll.PoolFail.C121_agree_sleep
#print axioms Foxxll.PoolFail.C121_agree_resize
#print axioms Foxxll.PoolFail.C122_false
#print axioms Foxxll.PoolFail.C122_partial
#print axioms Foxxll.PoolFail.C122_end_partial
#print axioms Foxxll.PoolFail.C123_false
#print axioms Foxxll.PoolFail.C123_steal_false
#print axioms Foxxll.PoolFail.C123_write_false
#print axioms Foxxll.PoolFail.C123_reason_partial
#print axioms Foxxll.PoolFail.C123_read_partial
#print axioms Foxxll.PoolFail.C124_false
#print axioms Foxxll.PoolFail.C124_partial
#print axioms Foxxll.AioStore.C125_false
#print axioms Foxxll.AioStore.C125_order_false
#print axioms Foxxll.AioStore.C125_overtake_false
#print axioms Foxxll.AioStore.C125_partial
#print axioms Foxxll.AioStore.C125_file_partial
#print axioms Foxxll.AioStore.C125_size
#print axioms Foxxll.AioStore.C125_size_kernel_partial
#print axioms Foxxll.PoolFail.C126_false
#print axioms Foxxll.PoolFail.C126_partial
#print axioms Foxxll.PoolFail.C126_cancel_partial
#print axioms Foxxll.AlignedHeap.C127_false
#print axioms Foxxll.AlignedHeap.C127_new_alloc_false
#print axioms Foxxll.AlignedHeap.C127_leak_false
#print axioms Foxxll.AlignedHeap.C127_partial
#print axioms Foxxll.AlignedHeap.C127_dealloc_partial
#print axioms Foxxll.AlignedHeap.C127_leak_partial
#print axioms Foxxll.AlignedHeap.C127_new_alloc_partial
#print axioms Foxxll.AlignedHeap.C127_new_array_partial
#print axioms Foxxll.AlignedHeap.C127_agree
#print axioms Foxxll.StreamOpen.C128_false
#print axioms Foxxll.StreamOpen.C128_early_false
#print axioms Foxxll.StreamOpen.C128_buffers_false
#print axioms Foxxll.StreamOpen.C128_partial
#print axioms Foxxll.Config.C129_false
#print axioms Foxxll.Config.C129_race_false
#print axioms Foxxll.Config.C129_partial
#print axioms Foxxll.Config.C129_lines
#print axioms Foxxll.Config.C129_total
#print axioms Foxxll.Config.C129_again
#print axioms Foxxll.Sched.C13_permutation
#print axioms Foxxll.PoolStore.C130_false
#print axioms Foxxll.PoolStore.C130_partial
#print axioms Foxxll.PoolStore.C130_single
#print axioms Foxxll.PoolStore.C130_history
#print axioms Foxxll.PoolStore.C130_start
#print axioms Foxxll.PoolStore.C130_disk_partial
#print axioms Foxxll.PoolStore.C130_refines
#print axioms Foxxll.Swap.C131_false
#print axioms Foxxll.Swap.C131_partial
#print axioms Foxxll.Swap.C131_sim_partial
#print axioms Foxxll.Ahead.C131_prefetch
#print axioms Foxxll.Swap.C132_false
#print axioms Foxxll.Swap.C132_twice_false
#print axioms Foxxll.Swap.C132_partial
#print axioms Foxxll.Swap.C132_lfd_partial
#print axioms Foxxll.Swap.C132_smallest
#print axioms Foxxll.Swap.C132_blank
#print axioms Foxxll.Swap.C132_fresh
#print axioms Foxxll.Ahead.C132_prefetch_partial
#print axioms Foxxll.SwapFail.C133_false_read
#print axioms Foxxll.SwapFail.C133_false_write
#print axioms Foxxll.SwapFail.C133_false_extract
#print axioms Foxxll.SwapFail.C133_false_flush
#print axioms Foxxll.SwapFail.C133_partial
#print axioms Foxxll.SwapFail.C133_external
#print axioms Foxxll.SwapFail.C133_hit
#print axioms Foxxll.SwapFail.C133_memory
#print axioms Foxxll.SwapFail.C133_agree
#print axioms Foxxll.SwapFail.C134_false_stuck
#print axioms Foxxll.SwapFail.C134_false_space
#print axioms Foxxll.SwapFail.C134_false_alloc
#print axioms Foxxll.SwapFail.C134_false_flush
#print axioms Foxxll.SwapFail.C134_partial
#print axioms Foxxll.SwapFail.C134_progress
#print axioms Foxxll.SwapFail.C134_recover
#print axioms Foxxll.SwapFail.C134_flight
#print axioms Foxxll.SwapFail.C134_served
#print axioms Foxxll.Tools.C135_false_freed
#print axioms Foxxll.Tools.C135_false_shared
#print axioms Foxxll.Tools.C135_partial
#print axioms Foxxll.Tools.C135_after
#print axioms Foxxll.Tools.C135_create
#print axioms Foxxll.Tools.C135_apart
#print axioms Foxxll.Tools.C135_batch
#print axioms Foxxll.Tools.C136_false_unknown
#print axioms Foxxll.Tools.C136_false_error
#print axioms Foxxll.Tools.C136_partial
#print axioms Foxxll.Tools.C136_called
#print axioms Foxxll.Tools.C136_reported
#print axioms Foxxll.Tools.C137_false
#print axioms Foxxll.Tools.C137_partial
#print axioms Foxxll.Tools.C137_check
#print axioms Foxxll.SwapStore.C138_false
#print axioms Foxxll.SwapStore.C138_partial
#print axioms Foxxll.SwapStore.C138_work
#print axioms Foxxll.SwapStore.C138_data
#print axioms Foxxll.SwapStore.C138_external
#print axioms Foxxll.SwapStore.C138_rules
#print axioms Foxxll.SwapStore.C138_blocks
#print axioms Foxxll.SwapStore.C138_calls
#print axioms Foxxll.SwapStore.C138_end
#print axioms Foxxll.SwapStore.C138_steps
#print axioms Foxxll.SwapStore.C138_throws
#print axioms Foxxll.SwapStore.C139_false
#print axioms Foxxll.SwapStore.C139_partial
#print axioms Foxxll.SwapStore.C139_run
#print axioms Foxxll.SwapStore.C139_apart
#print axioms Foxxll.SwapStore.C139_end
#print axioms Foxxll.Sched.C14_few_later_before
#print axioms Foxxll.Sched.C14_position
#print axioms Foxxll.DStore.C140_false
#print axioms Foxxll.DStore.C140_partial
#print axioms Foxxll.DStore.C140_wait_partial
#print axioms Foxxll.DStore.C140_disk_partial
#print axioms Foxxll.DStore.C140_defined
#print axioms Foxxll.DStore.C140_record
#print axioms Foxxll.DStore.C140_errors
#print axioms Foxxll.DStore.C140_keep
#print axioms Foxxll.DStore.C140_gone_false
#print axioms Foxxll.DStore.C140_gone_partial
#print axioms Foxxll.QSetup.C141_false
#print axioms Foxxll.QSetup.C141_lost_false
#print axioms Foxxll.QSetup.C141_partial
#print axioms Foxxll.QSetup.C141_ub_partial
#print axioms Foxxll.QSetup.C141_null
#print axioms Foxxll.QSetup.C141_forever
#print axioms Foxxll.QSetup.C141_manager
#print axioms Foxxll.QSetup.C141_manager_partial
#print axioms Foxxll.QSetup.C141_when
#print axioms Foxxll.StreamFail.C142_false
#print axioms Foxxll.StreamFail.C142_again_false
#print axioms Foxxll.StreamFail.C142_destroy_false
#print axioms Foxxll.StreamFail.C142_partial
#print axioms Foxxll.StreamFail.C142_throws
#print axioms Foxxll.StreamFail.C142_stuck
#print axioms Foxxll.StreamFail.C142_destroy
#print axioms Foxxll.StreamFail.C142_end
#print axioms Foxxll.WriterFail.C143_false
#print axioms Foxxll.WriterFail.C143_ub_false
#print axioms Foxxll.WriterFail.C143_stream_false
#print axioms Foxxll.WriterFail.C143_partial
#print axioms Foxxll.WriterFail.C143_flush
#print axioms Foxxll.WriterFail.C143_forever
#print axioms Foxxll.WriterFail.C143_soon
#print axioms Foxxll.WriterFail.C143_before
#print axioms Foxxll.WriterFail.C143_stream_partial
#print axioms Foxxll.WriterFail.C143_stream_before
#print axioms Foxxll.Reports.C144_false
#print axioms Foxxll.Reports.C144_copy_false
#print axioms Foxxll.Reports.C144_partial
#print axioms Foxxll.Reports.C144_ub
#print axioms Foxxll.Reports.C144_safe
#print axioms Foxxll.ConfigQuery.C145_false
#print axioms Foxxll.ConfigQuery.C145_index_false
#print axioms Foxxll.ConfigQuery.C145_sum_false
#print axioms Foxxll.ConfigQuery.C145_partial
#print axioms Foxxll.ConfigQuery.C145_first
#print axioms Foxxll.ConfigQuery.C145_index
#print axioms Foxxll.ConfigQuery.C145_before
#print axioms Foxxll.ConfigQuery.C145_total
#print axioms Foxxll.StrategyConfig.C146_false
#print axioms Foxxll.StrategyConfig.C146_none_false
#print axioms Foxxll.StrategyConfig.C146_uninit_false
#print axioms Foxxll.StrategyConfig.C146_mixed_false
#print axioms Foxxll.StrategyConfig.C146_partial
#print axioms Foxxll.StrategyConfig.C146_any
#print axioms Foxxll.SwapStore.C147_false
#print axioms Foxxll.SwapStore.C147_partial
#print axioms Foxxll.SwapStore.C147_starts
#print axioms Foxxll.SwapStore.C147_rules
#print axioms Foxxll.SwapStore.C147_end
#print axioms Foxxll.SwapStore.C147_memory
#print axioms Foxxll.SwapStore.C147_external
#print axioms Foxxll.BlockElems.C148_values
#print axioms Foxxll.BlockElems.C148_frame
#print axioms Foxxll.BlockElems.C148_iterate
#print axioms Foxxll.BlockElems.C148_only_data
#print axioms Foxxll.PoolMem.C149_construct_false
#print axioms Foxxll.PoolMem.C149_write_false
#print axioms Foxxll.PoolMem.C149_resize_false
#print axioms Foxxll.PoolMem.C149_steal_false
#print axioms Foxxll.PoolMem.C149_partial
#print axioms Foxxll.PoolMem.C149_enough
#print axioms Foxxll.PoolMem.C149_oom
#print axioms Foxxll.PoolMem.C149_loss
#print axioms Foxxll.PoolMem.C149_forever
#print axioms Foxxll.PoolMem.C149_swap
#print axioms Foxxll.PoolMem.C149_add
#print axioms Foxxll.PoolMem.C149_agree
#print axioms Foxxll.PoolMem.C149_agree_write
#print axioms Foxxll.PoolMem.C149_agree_steal
#print axioms Foxxll.Prefetch.C15_false
#print axioms Foxxll.Prefetch.C15_safe_partial
#print axioms Foxxll.Prefetch.C15_order_and_content_partial
#print axioms Foxxll.Prefetch.C15_hand_out_partial
#print axioms Foxxll.Prefetch.C15_read_once_partial
#print axioms Foxxll.Prefetch.C15_no_deadlock_partial
#print axioms Foxxll.Prefetch.C15_schedule_ok
#print axioms Foxxll.BidHash.C150_table
#print axioms Foxxll.BidHash.C150_hash
#print axioms Foxxll.BidHash.C150_bucket
#print axioms Foxxll.BidHash.C150_eq
#print axioms Foxxll.BidHash.C150_less
#print axioms Foxxll.NrefCheck.C151_false
#print axioms Foxxll.NrefCheck.C151_partial
#print axioms Foxxll.NrefCheck.C151_client
#print axioms Foxxll.NrefCheck.C151_stays
#print axioms Foxxll.NrefCheck.C151_alignment
#print axioms Foxxll.NrefCheck.C151_construct
#print axioms Foxxll.ManagerLife.C152_false
#print axioms Foxxll.ManagerLife.C152_size_false
#print axioms Foxxll.ManagerLife.C152_terminate_false
#print axioms Foxxll.ManagerLife.C152_failed_partial
#print axioms Foxxll.ManagerLife.C152_construct
#print axioms Foxxll.ManagerLife.C152_retry
#print axioms Foxxll.ManagerLife.C152_destroy_partial
#print axioms Foxxll.WriterFail.C153_false
#print axioms Foxxll.WriterFail.C153_partial
#print axioms Foxxll.WriterFail.C153_terminates
#print axioms Foxxll.WriterFail.C153_ends
#print axioms Foxxll.Helpers.C154_default
#print axioms Foxxll.Helpers.C154_false
#print axioms Foxxll.Helpers.C154_partial
#print axioms Foxxll.Helpers.C154_last_partial
#print axioms Foxxll.Helpers.C155_false
#print axioms Foxxll.Helpers.C155_swap_partial
#print axioms Foxxll.Helpers.C155_swap_same_partial
#print axioms Foxxll.Helpers.C155_swap_bounds
#print axioms Foxxll.Helpers.C155_pop
#print axioms Foxxll.Helpers.C155_pop_begin
#print axioms Foxxll.Helpers.C155_text_false
#print axioms Foxxll.Helpers.C155_text_partial
#print axioms Foxxll.StreamFail.C156_false
#print axioms Foxxll.StreamFail.C156_start_partial
#print axioms Foxxll.StreamFail.C156_safe_partial
#print axioms Foxxll.StreamFail.C156_partial
#print axioms Foxxll.StreamFail.C156_terminates
#print axioms Foxxll.StreamFail.C156_ends
#print axioms Foxxll.StreamFail.C156_goes_on
#print axioms Foxxll.StreamFail.C156_agree
#print axioms Foxxll.StreamFail.C156_schedule
#print axioms Foxxll.WriterFail.C157
#print axioms Foxxll.WriterFail.C157_terminates
#print axioms Foxxll.WriterFail.C157_ends
#print axioms Foxxll.WriterFail.C157_dropped
#print axioms Foxxll.Stream.C16_false
#print axioms Foxxll.Stream.C16_output
#print axioms Foxxll.Stream.C16_readBuffers
#print axioms Foxxll.Stream.C16_input_partial
#print axioms Foxxll.Stream.C16_roundtrip_partial
#print axioms Foxxll.Stream.C16_output_progress
#print axioms Foxxll.Stream.C16_input_progress_partial
#print axioms Foxxll.BufWriter.C17_false
#print axioms Foxxll.BufWriter.C17_wrong_data
#print axioms Foxxll.BufWriter.C17_handed_out_partial
#print axioms Foxxll.BufWriter.C17_nothing_extra_partial
#print axioms Foxxll.BufWriter.C17_flush_complete_partial
#print axioms Foxxll.BufWriter.C17_batch_order
#print axioms Foxxll.BufWriter.C18_false
#print axioms Foxxll.BufWriter.C18_not_stuck_partial
#print axioms Foxxll.BufWriter.C18_terminates_partial
#print axioms Foxxll.BufWriter.C18_ostream
#print axioms Foxxll.Pool.C19_false
#print axioms Foxxll.Pool.C19_partial
#print axioms Foxxll.Pool.C19_steal
#print axioms Foxxll.Pool.C19_wsize
#print axioms Foxxll.Pool.C19_psize
#print axioms Foxxll.Pool.C19_no_assert
#print axioms Foxxll.Pool.C20_false
#print axioms Foxxll.Pool.C20_partial
#print axioms Foxxll.Pool.C20_history
#print axioms Foxxll.Queue.C21_fifo
#print axioms Foxxll.Queue.C21_cancel
#print axioms Foxxll.Queue.C21_progress
#print axioms Foxxll.Queue.C21_idle
#print axioms Foxxll.Queue.C21_no_error
#print axioms Foxxll.Queue.C22_false
#print axioms Foxxll.Queue.C22_partial
#print axioms Foxxll.Queue.C22_at_most_one_lost
#print axioms Foxxll.Queue.C22_terminates
#print axioms Foxxll.Queue.C23_false
#print axioms Foxxll.Queue.C23_fifo
#print axioms Foxxll.Queue.C23_partial
#print axioms Foxxll.Request.C24_false
#print axioms Foxxll.Request.C24_wait_partial
#print axioms Foxxll.Request.C24_once_partial
#print axioms Foxxll.Request.C24_poll_partial
#print axioms Foxxll.Request.C24_completes
#print axioms Foxxll.Request.C24_ub_only
#print axioms Foxxll.Request.C24_no_ub_partial
#print axioms Foxxll.Request.C25_false
#print axioms Foxxll.Request.C25_partial
#print axioms Foxxll.WaitAny.C26_no_lost
#print axioms Foxxll.WaitAny.C26_returns
#print axioms Foxxll.WaitAny.C26_own_steps
#print axioms Foxxll.Switch.C27_false
#print axioms Foxxll.Switch.C27_false_without_spurious
#print axioms Foxxll.Switch.C27_partial
#print axioms Foxxll.Shared.C28_returns
#print axioms Foxxll.Shared.C28_no_lost
#print axioms Foxxll.Shared.C28_released
#print axioms Foxxll.Aio.C29_false
#print axioms Foxxll.Aio.C29_partial
#print axioms Foxxll.Aio.C29_exact_partial
#print axioms Foxxll.Aio.C30_false
#print axioms Foxxll.Aio.C30_never
#print axioms Foxxll.Aio.negotiate_fuel
#print axioms Foxxll.Aio.C30_partial
#print axioms Foxxll.Aio.C30_range
#print axioms Foxxll.Aio.C31_false
#print axioms Foxxll.Aio.C31_false_destructor
#print axioms Foxxll.Aio.C31_blocks
#print axioms Foxxll.Aio.C31_partial
#print axioms Foxxll.Aio.C31_drains_partial
#print axioms Foxxll.Aio.C32_false
#print axioms Foxxll.Aio.C32_false_deadlock
#print axioms Foxxll.Aio.C32_partial
#print axioms Foxxll.Files.C33_read
#print axioms Foxxll.Files.C33_write
#print axioms Foxxll.Files.C33_errors
#print axioms Foxxll.Files.C33_no_progress
#print axioms Foxxll.Files.C34_false
#print axioms Foxxll.Files.C34_partial
#print axioms Foxxll.Files.C35_names
#print axioms Foxxll.Files.C35_independent
#print axioms Foxxll.Files.C35_false
#print axioms Foxxll.Files.C35_false_trunc
#print axioms Foxxll.Files.C35_partial
#print axioms Foxxll.Config.C36_false
#print axioms Foxxll.Config.C36_false_linuxaio
#print axioms Foxxll.Config.C36_partial
#print axioms Foxxll.Config.C36_line_partial
#print axioms Foxxll.Config.C37_false
#print axioms Foxxll.Config.C37_partial
#print axioms Foxxll.Config.C38_false
#print axioms Foxxll.Config.C38_false_more
#print axioms Foxxll.Config.C38_partial
#print axioms Foxxll.Config.C39_false
#print axioms Foxxll.Config.C39_false_wrap
#print axioms Foxxll.Config.C39_partial
#print axioms Foxxll.Open.C39_disks_partial
#print axioms Foxxll.Iostats.C40_time
#print axioms Foxxll.Iostats.C40_count
#print axioms Foxxll.Iostats.C41_parallel
#print axioms Foxxll.Iostats.C41_parallel_io
#print axioms Foxxll.Iostats.C41_parallel_wait
#print axioms Foxxll.Iostats.C41_reported
#print axioms Foxxll.Iostats.C41_order_needed
#print axioms Foxxll.Iostats.C42_false
#print axioms Foxxll.Iostats.C42_partial
#print axioms Foxxll.Iostats.C43_add_sub
#print axioms Foxxll.Iostats.C43_per_device
#print axioms Foxxll.Iostats.C43_activity
#print axioms Foxxll.Iostats.C43_lists
#print axioms Foxxll.Iostats.C43_subtrahend_only
#print axioms Foxxll.UInt.Pair.C44_conversions
#print axioms Foxxll.UInt.Pair.C44_arithmetic
#print axioms Foxxll.UInt.Pair.C45_order
#print axioms Foxxll.Arith.C46_aligned_alloc
#print axioms Foxxll.Arith.C46_realloc_only_shrinks
#print axioms Foxxll.Arith.C46_array_elements_aligned
#print axioms Foxxll.Arith.C47_layout
#print axioms Foxxll.Arith.C47_accepted
#print axioms Foxxll.Arith.C47_aligned
#print axioms Foxxll.Arith.C48_div_ceil
#print axioms Foxxll.Arith.C48_round_up
#print axioms Foxxll.AddrQ.C49_fifo_refines
#print axioms Foxxll.AddrQ.C50_pq_refines
#print axioms Foxxll.Swap.C51_false
#print axioms Foxxll.Swap.C51_partial
#print axioms Foxxll.Swap.C51_survives
#print axioms Foxxll.Swap.C51_external
#print axioms Foxxll.Swap.C52_account
#print axioms Foxxll.Swap.C52_blocks
#print axioms Foxxll.Swap.C52_acquire
#print axioms Foxxll.Swap.C52_progress
#print axioms Foxxll.Swap.C52_max
#print axioms Foxxll.Swap.C53_false_invalid
#print axioms Foxxll.Swap.C53_false_acquired
#print axioms Foxxll.Swap.C53_partial
#print axioms Foxxll.Swap.C53_recorded
#print axioms Foxxll.Swap.C54_false
#print axioms Foxxll.Swap.C54_partial
#print axioms Foxxll.Swap.C54_never_partial
#print axioms Foxxll.Arith.C55_longhash1_injective
#print axioms Foxxll.Arith.C56_false
#print axioms Foxxll.Arith.C56_memalign_partial
#print axioms Foxxll.Mgr.C57_capacity
#print axioms Foxxll.Mgr.C57_exact
#print axioms Foxxll.WaitAny.C58_false
#print axioms Foxxll.WaitAny.C58_partial
#print axioms Foxxll.WaitAny.C58_only_thrown
#print axioms Foxxll.WaitAny.C59_false
#print axioms Foxxll.WaitAny.C59_partial
#print axioms Foxxll.WaitAny.C59_result_partial
#print axioms Foxxll.Switch.C60_false
#print axioms Foxxll.Switch.C60_partial
#print axioms Foxxll.Aio.C61_false
#print axioms Foxxll.Aio.C61_false_in_flight
#print axioms Foxxll.Aio.C61_partial
#print axioms Foxxll.Aio.C61_returns_partial
#print axioms Foxxll.Aio.C62_false
#print axioms Foxxll.Aio.C62_partial
#print axioms Foxxll.Aio.C63_false
#print axioms Foxxll.Aio.C63_never
#print axioms Foxxll.Files.C64_false
#print axioms Foxxll.Files.C64_partial
#print axioms Foxxll.Files.C64_sigbus
#print axioms Foxxll.Config.C65_false
#print axioms Foxxll.Config.C65_partial
#print axioms Foxxll.Config.C66_false
#print axioms Foxxll.Config.C66_partial
#print axioms Foxxll.Iostats.C67_waits
#print axioms Foxxll.Iostats.C68_timer
#print axioms Foxxll.Config.C69_words
#print axioms Foxxll.Config.C69_restricted
#print axioms Foxxll.Config.C70_false
#print axioms Foxxll.Config.C70_partial
#print axioms Foxxll.Config.C70_range
#print axioms Foxxll.Swap.C71_lru
#print axioms Foxxll.Swap.C71_one
#print axioms Foxxll.Swap.C72_smallest
#print axioms Foxxll.Swap.C72_valid
#print axioms Foxxll.Ahead.C72_prefetch
#print axioms Foxxll.Swap.C73_flush
#print axioms Foxxll.Swap.C74_switch
#print axioms Foxxll.Swap.C74_order
#print axioms Foxxll.Swap.C74_data
#print axioms Foxxll.Swap.C74_ties
#print axioms Foxxll.Open.C75_direct
#print axioms Foxxll.Open.C75_required
#print axioms Foxxll.Open.C75_fallback
#print axioms Foxxll.Open.C75_named
#print axioms Foxxll.Open.C76_false
#print axioms Foxxll.Open.C76_partial
#print axioms Foxxll.Open.C76_disks
#print axioms Foxxll.Open.C77_false
#print axioms Foxxll.Open.C77_partial
#print axioms Foxxll.Open.C77_constructor_partial
#print axioms Foxxll.Open.C78_false_locked
#print axioms Foxxll.Open.C78_false_mmap
#print axioms Foxxll.Open.C78_partial
#print axioms Foxxll.Open.C78_disks_partial
#print axioms Foxxll.Open.C78_expected
#print axioms Foxxll.Open.C79_false
#print axioms Foxxll.Open.C79_partial
#print axioms Foxxll.Open.C80_false
#print axioms Foxxll.Open.C80_partial
#print axioms Foxxll.DiskQ.C81_false
#print axioms Foxxll.DiskQ.C81_partial
#print axioms Foxxll.DiskQ.C81_cancel_partial
#print axioms Foxxll.DiskQ.C81_cancel_none
#print axioms Foxxll.DiskQ.C81_length
#print axioms Foxxll.DiskQ.C82_false
#print axioms Foxxll.DiskQ.C82_partial
#print axioms Foxxll.Single.C83_unique
#print axioms Foxxll.Single.C83_exclusive
#print axioms Foxxll.Single.C83_exception
#print axioms Foxxll.Single.C84_false
#print axioms Foxxll.Single.C84_partial
#print axioms Foxxll.Single.C84_single_partial
#print axioms Foxxll.Single.C84_library
#print axioms Foxxll.Single.C84_creates
#print axioms Foxxll.Single.C85_progress
#print axioms Foxxll.Single.C85_ends
#print axioms Foxxll.Single.C85_library
#print axioms Foxxll.Single.C85_circle
#print axioms Foxxll.Open.C86_false
#print axioms Foxxll.Open.C86_false_direct
#print axioms Foxxll.Open.C86_partial
#print axioms Foxxll.Open.C86_removed
#print axioms Foxxll.Timer.C87_false
#print axioms Foxxll.Timer.C87_false_start
#print axioms Foxxll.Timer.C87_partial
#print axioms Foxxll.Timer.C87_later
#print axioms Foxxll.ReqOps.C88_false
#print axioms Foxxll.ReqOps.C88_partial
#print axioms Foxxll.ReqOps.C88_thrown
#print axioms Foxxll.ReqOps.C88_progress
#print axioms Foxxll.ReqOps.C89_false
#print axioms Foxxll.ReqOps.C89_partial
#print axioms Foxxll.ReqOps.C89_progress
#print axioms Foxxll.ReqOps.C90_cancel
#print axioms Foxxll.ReqOps.C90_all
#print axioms Foxxll.Ahead.C91_false
#print axioms Foxxll.Ahead.C91_partial
#print axioms Foxxll.Ahead.C91_online_partial
#print axioms Foxxll.Ahead.C91_external_partial
#print axioms Foxxll.Ahead.C92_false_extract
#print axioms Foxxll.Ahead.C92_false_flush
#print axioms Foxxll.Ahead.C92_false_alloc
#print axioms Foxxll.Ahead.C92_start
#print axioms Foxxll.Ahead.C92_partial
#print axioms Foxxll.Ahead.C92_other
#print axioms Foxxll.Ahead.C92_only
#print axioms Foxxll.Ahead.C92_alloc_partial
#print axioms Foxxll.Ahead.C93_false
#print axioms Foxxll.Ahead.C93_acquired_partial
#print axioms Foxxll.Ahead.C93_free_partial
#print axioms Foxxll.Ahead.C93_apart_partial
#print axioms Foxxll.Ahead.C94
#print axioms Foxxll.Ahead.C94_reserved
#print axioms Foxxll.Ahead.C94_acquire
#print axioms Foxxll.Ahead.C95_false
#print axioms Foxxll.Ahead.C95_partial
#print axioms Foxxll.Ahead.C96
#print axioms Foxxll.Ahead.C97_false
#print axioms Foxxll.Ahead.C97_partial
#print axioms Foxxll.Store.C98_false
#print axioms Foxxll.Store.C98_partial
#print axioms Foxxll.Store.C98_wait
#print axioms Foxxll.Store.C98_disk
#print axioms Foxxll.Store.C98_errors
#print axioms Foxxll.Store.C98_cancel
#print axioms Foxxll.Store.C98_grow
#print axioms Foxxll.Summary.C99_false
#print axioms Foxxll.Summary.C99_false_speed
#print axioms Foxxll.Summary.C99_partial
#print axioms Foxxll.Summary.C99_total
#print axioms Foxxll.Summary.C99_speed_partial
#print axioms Foxxll.Summary.C99_empty
