import Verif.Base
import Verif.Conc.ActiveObject
import Verif.Conc.ActiveObjectLive
import Verif.Conc.ActiveObjectProps
import Verif.Conc.Dispatch
import Verif.Conc.Mutex
import Verif.Conc.MutexLxrt
import Verif.Conc.MutexLxrtProps
import Verif.Conc.MutexProps
import Verif.Conc.Periodic
import Verif.Conc.PeriodicRt
import Verif.Conc.PeriodicRtProps
import Verif.Conc.PeriodicTimerfd
import Verif.Conc.PeriodicTimerfdProps
import Verif.Conc.Priority
import Verif.Conc.PriorityProps
import Verif.Conc.RWLock
import Verif.Conc.RWLockExact
import Verif.Conc.RWLockLemmas
import Verif.Conc.RWLockLive
import Verif.Conc.RWLockLxrt
import Verif.Conc.RWLockLxrtProps
import Verif.Conc.RWLockPosix
import Verif.Conc.RWLockPosixProps
import Verif.Conc.RWLockProps
import Verif.Conc.Race.Lemmas
import Verif.Conc.Race.Model
import Verif.Conc.Race.Objects
import Verif.Conc.Race.Order
import Verif.Conc.Realtime
import Verif.Conc.RealtimeProps
import Verif.Conc.Registry.Config
import Verif.Conc.Registry.ConfigProps
import Verif.Conc.Registry.ConfigSpec
import Verif.Conc.Registry.Foot
import Verif.Conc.Registry.Getopt
import Verif.Conc.Registry.GetoptProps
import Verif.Conc.Registry.GetoptSpec
import Verif.Conc.Registry.Lemmas
import Verif.Conc.Registry.Model
import Verif.Conc.Registry.Perf
import Verif.Conc.Registry.PerfLemmas
import Verif.Conc.Registry.PerfProps
import Verif.Conc.Registry.PerfSpec
import Verif.Conc.Registry.Plugin
import Verif.Conc.Registry.PluginLemmas
import Verif.Conc.Registry.PluginProps
import Verif.Conc.Registry.PluginSpec
import Verif.Conc.Scoped
import Verif.Conc.ScopedSem
import Verif.Conc.ScopedSemProps
import Verif.Conc.Semaphore
import Verif.Conc.SemaphoreProps
import Verif.Conc.Singleton
import Verif.Conc.SingletonGuard
import Verif.Conc.SpinLock
import Verif.Conc.Thread
import Verif.Conc.ThreadExact
import Verif.Conc.ThreadHB.History
import Verif.Conc.ThreadHB.Lemmas
import Verif.Conc.ThreadHB.Model
import Verif.Conc.ThreadHB.Props
import Verif.Conc.ThreadHB.Spec
import Verif.Conc.ThreadLemmas
import Verif.Conc.ThreadLxrt
import Verif.Conc.ThreadLxrtProps
import Verif.Conc.ThreadProps
import Verif.Conc.TimedWait
import Verif.Conc.TimedWaitProps
import Verif.Config.ATCommentPrint
import Verif.Config.ATCommentProps
import Verif.Config.ATCommentSpec
import Verif.Config.ATCrash
import Verif.Config.ATCrashProps
import Verif.Config.ATErrProps
import Verif.Config.ATErrSpec
import Verif.Config.ATEvery
import Verif.Config.ATEveryProps
import Verif.Config.ATEverySpec
import Verif.Config.ATInclude
import Verif.Config.ATIncludeLemmas
import Verif.Config.ATIncludeProps
import Verif.Config.ATIncludeSpec
import Verif.Config.ATLemmas
import Verif.Config.ATLoad
import Verif.Config.ATLoadProps
import Verif.Config.ATModel
import Verif.Config.ATNames
import Verif.Config.ATNamesProps
import Verif.Config.ATProps
import Verif.Config.ATRound
import Verif.Config.ATRoundExact
import Verif.Config.ATRoundExactProps
import Verif.Config.ATRoundExactSpec
import Verif.Config.ATRoundProps
import Verif.Config.ATSearch
import Verif.Config.ATSearchProps
import Verif.Config.ATSpec
import Verif.Config.ATTextConfig
import Verif.Config.ATTextLemmas
import Verif.Config.ATTextProps
import Verif.Config.ATTextSpec
import Verif.Config.CfgFileProps
import Verif.Config.CfgIncludeProps
import Verif.Config.CfgIncludeSpec
import Verif.Config.CfgLemmas
import Verif.Config.CfgModel
import Verif.Config.CfgObsProps
import Verif.Config.CfgProps
import Verif.Config.CfgSpec
import Verif.Config.EnumModel
import Verif.Config.EnumProps
import Verif.Config.FilePathModel
import Verif.Config.FilePathProps
import Verif.Config.FilePathResolve
import Verif.Config.GetoptHelp
import Verif.Config.GetoptHelpProps
import Verif.Config.GetoptLemmas
import Verif.Config.GetoptModel
import Verif.Config.GetoptProps
import Verif.Config.GetoptSpec
import Verif.Config.Heap.Browse
import Verif.Config.Heap.Chain
import Verif.Config.Heap.Delete
import Verif.Config.Heap.Inv
import Verif.Config.Heap.Link
import Verif.Config.Heap.Model
import Verif.Config.Heap.Ops
import Verif.Config.Heap.Props
import Verif.Config.Heap.Spec
import Verif.Config.ListHistory
import Verif.Config.ListLemmas
import Verif.Config.ListModel
import Verif.Config.ListProps
import Verif.Config.ListSpec
import Verif.Config.Observe.Findings
import Verif.Config.Observe.Lemmas
import Verif.Config.Observe.Model
import Verif.Config.Observe.Pending
import Verif.Config.Observe.Props
import Verif.Config.Observe.Spec
import Verif.Config.ParamModel
import Verif.Config.ParamProps
import Verif.Config.ReadModel
import Verif.Config.ReadProps
import Verif.Logging.Buffer
import Verif.Logging.Connect
import Verif.Logging.ConnectProps
import Verif.Logging.File.Buffer
import Verif.Logging.File.BufferDelete
import Verif.Logging.File.BufferLemmas
import Verif.Logging.File.BufferProps
import Verif.Logging.File.Crash
import Verif.Logging.File.CrashDelete
import Verif.Logging.File.CrashLemmas
import Verif.Logging.File.CrashProps
import Verif.Logging.File.DayLemmas
import Verif.Logging.File.Lemmas
import Verif.Logging.File.Model
import Verif.Logging.File.Online
import Verif.Logging.File.OnlineProps
import Verif.Logging.File.Props
import Verif.Logging.File.Spec
import Verif.Logging.Filename
import Verif.Logging.FilenameProps
import Verif.Logging.Filter
import Verif.Logging.FixedQueue
import Verif.Logging.Format
import Verif.Logging.FormatChange
import Verif.Logging.FormatChangeProps
import Verif.Logging.FormatExact
import Verif.Logging.FormatProps
import Verif.Logging.Level
import Verif.Logging.Line.Lemmas
import Verif.Logging.Line.Model
import Verif.Logging.Line.Props
import Verif.Logging.Line.Spec
import Verif.Logging.Manager.ConfLemmas
import Verif.Logging.Manager.Exact
import Verif.Logging.Manager.InvLemmas
import Verif.Logging.Manager.Lemmas
import Verif.Logging.Manager.Model
import Verif.Logging.Manager.Props
import Verif.Logging.Manager.ReadLemmas
import Verif.Logging.Manager.ReuseLemmas
import Verif.Logging.Manager.ReuseProps
import Verif.Logging.Manager.Spec
import Verif.Logging.Matrix.Model
import Verif.Logging.Matrix.Props
import Verif.Logging.Pipe.Account
import Verif.Logging.Pipe.Lemmas
import Verif.Logging.Pipe.Live
import Verif.Logging.Pipe.LiveProps
import Verif.Logging.Pipe.Model
import Verif.Logging.Pipe.Order
import Verif.Logging.Pipe.Props
import Verif.Logging.Pipe.Steps
import Verif.Logging.Pool
import Verif.Logging.PoolIntr
import Verif.Logging.PoolIntrProps
import Verif.Logging.PoolProps
import Verif.Logging.Record
import Verif.Logging.RecordProps
import Verif.Logging.ScopedTimer
import Verif.Logging.ScopedTimerProps
import Verif.Logging.Shared.Discipline
import Verif.Logging.Shared.Lemmas
import Verif.Logging.Shared.Model
import Verif.Logging.Shared.Props
import Verif.Logging.Shared.Races
import Verif.Logging.Shared.Settings
import Verif.Logging.Sqlite
import Verif.Logging.SqliteCrash
import Verif.Logging.SqliteCrashProps
import Verif.Logging.SqliteProps
import Verif.Logging.Static.Lemmas
import Verif.Logging.Static.Model
import Verif.Logging.Static.Props
import Verif.Logging.Static.Spec
import Verif.Logging.Udp
import Verif.Logging.UdpLife
import Verif.Logging.UdpLifeLemmas
import Verif.Logging.UdpLifeProps
import Verif.Logging.UdpLifeSpec
import Verif.Logging.UdpProps
import Verif.Logging.Worker
import Verif.Logging.WorkerFixed
import Verif.Logging.WorkerFixedProps
import Verif.Logging.WorkerIntr
import Verif.Logging.WorkerIntrProps
import Verif.Logging.WorkerProps
import Verif.Os.KernelModule
import Verif.Os.KernelModuleProps
import Verif.Os.Snprintf
import Verif.Os.SnprintfProps
import Verif.Os.ZipFile
import Verif.Os.ZipFileProps
import Verif.Perf.All
import Verif.Perf.AllProps
import Verif.Perf.KeyLemmas
import Verif.Perf.KeyProps
import Verif.Perf.KeySpec
import Verif.Perf.Lemmas
import Verif.Perf.Model
import Verif.Perf.Props
import Verif.Perf.Spec
import Verif.Plugin.AllProps
import Verif.Plugin.Lemmas
import Verif.Plugin.Model
import Verif.Plugin.Props
import Verif.Plugin.Search
import Verif.Plugin.SearchProps
import Verif.Plugin.Spec
import Verif.RingBuffer.Bulk
import Verif.RingBuffer.FailLemmas
import Verif.RingBuffer.FailModel
import Verif.RingBuffer.FailProps
import Verif.RingBuffer.FailSpec
import Verif.RingBuffer.Lemmas
import Verif.RingBuffer.Model
import Verif.RingBuffer.OldLemmas
import Verif.RingBuffer.OldModel
import Verif.RingBuffer.OldProps
import Verif.RingBuffer.Props
import Verif.RingBuffer.Spec
import Verif.Sha2.Buffer
import Verif.Sha2.Compress
import Verif.Sha2.Consts
import Verif.Sha2.Model
import Verif.Sha2.Props
import Verif.Sha2.Spec
import Verif.Startup.DfltLemmas
import Verif.Startup.Lemmas
import Verif.Startup.Model
import Verif.Startup.Props
import Verif.Startup.Spec
import Verif.Testsuite.Model
import Verif.Testsuite.Props
import Verif.Time.CalendarProps
import Verif.Time.Dds
import Verif.Time.DdsProps
import Verif.Time.Iso
import Verif.Time.IsoLemmas
import Verif.Time.IsoLocal
import Verif.Time.IsoLocalProps
import Verif.Time.IsoOrder
import Verif.Time.IsoPrefixProps
import Verif.Time.IsoProps
import Verif.Time.Lemmas
import Verif.Time.Model
import Verif.Time.Props
import Verif.Time.Scale
import Verif.Time.ScaleProps
import Verif.Time.Sleep
import Verif.Time.SleepProps
import Verif.Time.Spec
import Verif.UnionFind.Lemmas
import Verif.UnionFind.Model
import Verif.UnionFind.Props
import Verif.UnionFind.Spec
import Verif.Util.CaseModel
import Verif.Util.CaseProps
import Verif.Util.ImaxdivModel
import Verif.Util.ImaxdivProps
import Verif.Util.KeyValue
import Verif.Util.KeyValueFail
import Verif.Util.KeyValueFailProps
import Verif.Util.KeyValueMatch
import Verif.Util.SchemeModel
import Verif.Util.SchemeProps
import Verif.Util.SchemeSpec
import Verif.Util.SeqModel
import Verif.Util.SeqProps
import Verif.Util.SmallModel
import Verif.Util.SmallProps
import Verif.Util.StampedLemmas
import Verif.Util.StampedModel
import Verif.Util.StampedProps
import Verif.Util.StampedSpec
import Verif.Util.StdMap
import Verif.Util.StrExact
import Verif.Util.StrMap
import Verif.Util.StrModel
import Verif.Util.StrProps
import Verif.Util.StringifyModel
import Verif.Util.StringifyProps
import Verif.Util.StringifySpec
import Verif.Util.StringifySpecial
