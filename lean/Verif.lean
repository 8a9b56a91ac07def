import Verif.Props.Alloc
import Verif.Props.Manager
import Verif.Props.Strategy
import Verif.Props.UIntPair
import Verif.Props.Arith
import Verif.Props.AddrQueue
import Verif.Props.AsyncSchedule
import Verif.Props.Prefetcher
import Verif.Props.BufWriter
import Verif.Props.Streams
import Verif.Props.Pools
import Verif.Props.Queues
import Verif.Props.Requests
import Verif.Props.Switches
import Verif.Props.WaitAny
import Verif.Props.Linuxaio
import Verif.Props.Files
import Verif.Props.Config
import Verif.Props.Iostats
import Verif.Props.ConfigOptions
import Verif.Props.BlockScheduler
import Verif.Props.BlockSchedulerPolicy
import Verif.Props.OpenFile
import Verif.Props.DiskQueues
import Verif.Props.Singleton
import Verif.Props.Timer
import Verif.Props.RequestOps
import Verif.Props.Ahead
import Verif.Props.Store
import Verif.Props.Summary
import Verif.Props.Steps
import Verif.Props.FileBench
import Verif.Props.DiskBench
import Verif.Props.QueueFair
import Verif.Props.FileExport
import Verif.Props.WinFile
import Verif.Props.ExitHandler
import Verif.Props.StreamStore
import Verif.Props.Lifetime
import Verif.Props.Locks
import Verif.Props.Alloc64
import Verif.Props.PoolFail
import Verif.Props.AioStore
import Verif.Props.PoolFail2
import Verif.Props.AlignedHeap
import Verif.Props.StreamOpen
import Verif.Props.FindConfig
import Verif.Props.PoolStore
import Verif.Props.SchedEnd
import Verif.Props.SwapFail
import Verif.Props.Tools
import Verif.Props.SwapStore
import Verif.Props.SwapWorld
import Verif.Props.DevStore
import Verif.Props.QueueSetup
import Verif.Props.StreamFail
import Verif.Props.WriterFail
import Verif.Props.Reports
import Verif.Props.ConfigQuery
import Verif.Props.StrategyConfig
import Verif.Props.SwapDestroy
import Verif.Props.BlockElems
import Verif.Props.PoolMem
import Verif.Props.BidHash
import Verif.Props.NrefCheck
import Verif.Props.ManagerLife
import Verif.Props.SwapAgree
import Verif.Props.WriterAlive
import Verif.Props.Helpers
import Verif.Props.StreamAlive
import Verif.Props.AlignedAgree
import Verif.Props.OStreamAlive
import Verif.Props.PoolFailAgree
import Verif.Props.PoolStealAgree
import Verif.Axioms
