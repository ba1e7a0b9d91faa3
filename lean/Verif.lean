import Verif.Sharding.Props
import Verif.Shuffle.Props
import Verif.Rng.Props
import Verif.MapDs.PropsGetitems
import Verif.MapDs.PropsMix
import Verif.MapDs.PropsSeq
import Verif.Iter.PropsCheckpoint
import Verif.Iter.PropsErrors
import Verif.Iter.PropsErrorsCache
import Verif.ThreadPrefetch.PropsErrors
import Verif.Apply.Props
import Verif.ProcPrefetch.PropsErrors
import Verif.Packing.PropsErrors
import Verif.Iter.PropsCommute
import Verif.Iter.PropsPipeline
import Verif.Iter.PropsIndex
import Verif.Sources.Props
import Verif.Batch.Props
import Verif.ElemSpec.Props
import Verif.ElemSpec.PropsPrefetch
import Verif.Float.PropsLength
import Verif.Float.PropsMix
import Verif.Interleave.Props
import Verif.ThreadPrefetch.Props
import Verif.ThreadPrefetch.PropsIndex
import Verif.ProcPrefetch.Props
import Verif.ProcPrefetch.PropsIndex
import Verif.Multiprocess.Props
import Verif.Multiprocess.PropsSlice
import Verif.Packing.Props
import Verif.Cts.Props
import Verif.Loader.Props
import Verif.Loader.PropsLegacy
import Verif.Loader.PropsLoad
import Verif.Iter.PropsFilterThreshold
import Verif.Options.Props
import Verif.Tree.Props
import Verif.Tree.MixNamed
import Verif.Slices.Props
import Verif.Elastic.Props
import Verif.Elastic.PropsAbove
import Verif.Elastic.PropsMap
import Verif.Queue.Props
import Verif.Packing.PropsLegacy
import Verif.Checkpoint.Props
import Verif.Close.Props
import Verif.Close.Findings
import Verif.Parallel.Props
import Verif.Stats.Props
import Verif.Stats.PropsReport
import Verif.Testing.Props
import Verif.Autotune.Props
import Verif.Seeds.Props
import Verif.Json.PropsAsync
import Verif.Interleave.PropsSparse
import Verif.Interleave.Unread
import Verif.Interleave.ModelShared
import Verif.Interleave.PropsUnread
import Verif.Interleave.LemmasShared
import Verif.Interleave.PropsShared
import Verif.Shm.Props
import Verif.Trace.Props
import Verif.Ahead.Spec
import Verif.Ahead.ThreadLemmas
import Verif.Ahead.ThreadProps
import Verif.Ahead.ProcProps
import Verif.Ahead.MapProps
import Verif.NamedMix.Model
import Verif.NamedMix.Spec
import Verif.NamedMix.Props
import Verif.MapDs.PropsEpochs
import Verif.Cost.Spec
import Verif.Cost.Lemmas
import Verif.Cost.Props
import Verif.SharedSource.Props
import Verif.Stack.Spec
import Verif.Stack.Model
import Verif.Stack.Lemmas
import Verif.Stack.Prefetch
import Verif.Stack.PrefetchUser
import Verif.Stack.Streams
import Verif.Stack.Props
import Verif.Stack.Ahead
import Verif.Stack.Process
import Verif.Stack.ProcessLemmas
import Verif.Stack.ProcessUser
import Verif.Stack.Multi
import Verif.Stack.MultiLemmas
import Verif.Stack.MultiStreams
import Verif.Elastic.Accept
import Verif.Elastic.AcceptLemmas
import Verif.Elastic.AcceptProps
import Verif.Stack.Interleave
import Verif.Stack.InterleaveLemmas
import Verif.Stack.InterleaveStreams
import Verif.Stack.InterleaveProps
import Verif.Stack.TreeAheadLemmas
import Verif.Stack.TreeAhead
import Verif.Stack.Close
import Verif.Stack.CloseLemmas
import Verif.Stack.CloseProps
import Verif.Stack.Anchor
import Verif.Stack.AnchorLemmas
import Verif.Stack.AnchorStreams
import Verif.Stack.AnchorPack
import Verif.Stack.AnchorProps
import Verif.Stack.AnchorRepeat
import Verif.Float.PropsMixInit
import Verif.Stack.TreeAheadAnchor
import Verif.Stack.Loader
import Verif.Stack.LoaderLemmas
import Verif.Stack.LoaderProps
import Verif.Iter.RandomAccessSpec
import Verif.Iter.PropsRandomAccess
import Verif.Stack.Start
import Verif.Stack.StartLemmas
import Verif.Stack.StartProps
import Verif.Stack.StartClose
import Verif.Multiprocess.ModelLazy
import Verif.Multiprocess.LemmasLazy
import Verif.Multiprocess.PropsLazy
import Verif.ProcPrefetch.StartFail
import Verif.Multiprocess.LemmasWarm
import Verif.Stack.RaiseSpec
import Verif.Stack.RaiseModel
import Verif.Stack.RaiseLemmas
import Verif.Stack.RaisePrefetch
import Verif.Stack.RaiseStreams
import Verif.Stack.RaiseUser
import Verif.Stack.RaiseProps
import Verif.Stack.RaiseProcess
import Verif.Stack.RaiseWorker
import Verif.Stack.RaiseMain
import Verif.Stack.RaiseMulti
import Verif.Stack.RaiseMultiLemmas
import Verif.Stack.RaiseTurns
import Verif.Stack.RaiseWorkers
import Verif.Stack.RaiseWorkersProps
import Verif.Stack.RaiseBlocks
import Verif.Stack.RaiseThreads
import Verif.Stack.RaiseThreadsProps
import Verif.Stack.RaiseInterleaveProps
import Verif.Close.StateProps
import Verif.Iter.PropsRefused
