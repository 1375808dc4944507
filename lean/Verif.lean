import Verif.Model.Time
import Verif.Model.Deps
import Verif.Model.TimeCoord
import Verif.Model.Fed
import Verif.Model.FedRun
import Verif.Lemmas.Deps
import Verif.Lemmas.MinTime
import Verif.Lemmas.TC
import Verif.Lemmas.Core
import Verif.Lemmas.FedStep
import Verif.Lemmas.FedLife
import Verif.Lemmas.Grant
import Verif.Lemmas.FedRun
import Verif.Lemmas.Blocks
import Verif.Lemmas.BlockFree
import Verif.Props.DepTable
import Verif.Props.MinTime
import Verif.Props.Grants
import Verif.Props.Barrier
import Verif.Model.Wire
import Verif.Model.Flags
import Verif.Lemmas.Wire
import Verif.Lemmas.WireDecode
import Verif.Lemmas.WireSafe
import Verif.Props.Wire
import Verif.Props.Flags
import Verif.Model.Input
import Verif.Lemmas.Input
import Verif.Lemmas.InputInv
import Verif.Props.Inputs
import Verif.Props.InputFilter
import Verif.Model.Endpoint
import Verif.Model.Publication
import Verif.Model.FedData
import Verif.Lemmas.Endpoint
import Verif.Props.Endpoints
import Verif.Props.FedMessages
import Verif.Props.FedValues
import Verif.Props.Publications
import Verif.Props.Targets
import Verif.Model.Settings
import Verif.Props.Settings
import Verif.Lemmas.Table
import Verif.Lemmas.TableRun
import Verif.Lemmas.Entry
import Verif.Lemmas.Causal
import Verif.Lemmas.AllDeps
import Verif.Props.Causal
import Verif.Lemmas.EnterExec
import Verif.Props.ExecEntry
import Verif.Lemmas.Gone
import Verif.Props.Departed
import Verif.Props.LifeCycle
import Verif.Props.Goodbyes
import Verif.Props.Iterations
import Verif.Props.Handles
import Verif.Props.Connect
import Verif.Props.Ready
import Verif.Props.Records
import Verif.Props.EntryWait
import Verif.Lemmas.Told
import Verif.Lemmas.Promise
import Verif.Lemmas.Adv
import Verif.Props.Announce
import Verif.Props.Nameless
import Verif.Lemmas.Signed
import Verif.Lemmas.Net
import Verif.Model.Net
import Verif.Props.Causality
import Verif.Model.SmallBuffer
import Verif.Lemmas.SmallBuffer
import Verif.Props.SmallBuffer
import Verif.Model.BrokerInit
import Verif.Lemmas.BrokerInit
import Verif.Lemmas.InitSys
import Verif.Lemmas.InitRoot
import Verif.Lemmas.InitStart
import Verif.Lemmas.InitRun
import Verif.Props.BrokerInit
import Verif.Props.BrokerInitCases
import Verif.Props.Registration
import Verif.Model.Filters
import Verif.Props.FilterSpec
import Verif.Lemmas.Filters
import Verif.Lemmas.FilterChain
import Verif.Lemmas.FilterHome
import Verif.Lemmas.FilterHold
import Verif.Lemmas.FilterStep
import Verif.Lemmas.FilterDest
import Verif.Lemmas.FilterRun
import Verif.Lemmas.FilterDrain
import Verif.Props.Filters
import Verif.Props.FilterCases
import Verif.Lemmas.FilterReturn
import Verif.Model.Values
import Verif.Lemmas.Values
import Verif.Model.InputApi
import Verif.Lemmas.ValueShape
import Verif.Props.ValueSpec
import Verif.Props.Values
import Verif.Props.ValueTable
import Verif.Props.ValueCases
import Verif.Props.Reduce
import Verif.Props.ReduceCases
import Verif.Props.ValueChange
import Verif.Model.CmdQueue
import Verif.Props.QueueSpec
import Verif.Lemmas.CmdQueue
import Verif.Lemmas.CmdQueueInv
import Verif.Lemmas.CmdQueueIds
import Verif.Lemmas.CmdQueueOrder
import Verif.Lemmas.CmdQueueEvents
import Verif.Lemmas.CmdQueueWake
import Verif.Props.CmdQueue
import Verif.Model.DelayQueue
import Verif.Props.DelayQueue
import Verif.Props.ValueDirect
import Verif.Model.Forward
import Verif.Model.Tree
import Verif.Lemmas.Forward
import Verif.Lemmas.ForwardAct
import Verif.Lemmas.Tree
import Verif.Lemmas.TreeInv
import Verif.Lemmas.TreeMove
import Verif.Props.TreeSpec
import Verif.Props.TreeCausality
import Verif.Props.TreeCases
import Verif.Props.TreeEntrySpec
import Verif.Lemmas.ForwardHush
import Verif.Lemmas.TreeHush
import Verif.Lemmas.Mum
import Verif.Props.TreeEntry
import Verif.Props.TreeEntryCases
import Verif.Props.InformSpec
import Verif.Lemmas.Inform
import Verif.Lemmas.InformRun
import Verif.Props.Inform
import Verif.Props.InformMore
import Verif.Props.InformCases
import Verif.Model.AppFed
import Verif.Props.ApiSpec
import Verif.Lemmas.Api
import Verif.Lemmas.ApiRun
import Verif.Lemmas.ApiStep
import Verif.Lemmas.ApiNotes
import Verif.Lemmas.ApiKeep
import Verif.Lemmas.ApiKeepRun
import Verif.Lemmas.ApiHist
import Verif.Props.Api
import Verif.Props.ApiNotes
import Verif.Props.ApiAsync
import Verif.Props.ApiFine
import Verif.Props.ApiCases
import Verif.Model.Routing
import Verif.Props.RoutingSpec
import Verif.Lemmas.RoutingFin
import Verif.Props.RoutingProps
import Verif.Props.RoutingCases
import Verif.Model.Shutdown
import Verif.Props.ShutdownSpec
import Verif.Lemmas.ShutdownDrain
import Verif.Props.ShutdownProps
import Verif.Props.ShutdownCases
import Verif.Model.Query
import Verif.Lemmas.QueryBuild
import Verif.Lemmas.QueryInv
import Verif.Lemmas.QueryStep
import Verif.Lemmas.QueryReq
import Verif.Lemmas.QueryRep
import Verif.Lemmas.QueryRun
import Verif.Lemmas.QueryLive
import Verif.Lemmas.QueryDrop
import Verif.Lemmas.QueryFresh
import Verif.Props.QuerySpec
import Verif.Props.QueryProps
import Verif.Props.QueryCases
import Verif.Model.Global
import Verif.Props.GlobalSpec
import Verif.Lemmas.Global
import Verif.Lemmas.GlobalRun
import Verif.Lemmas.GlobalLive
import Verif.Props.GlobalProps
import Verif.Props.GlobalNumbers
import Verif.Props.GlobalRound
import Verif.Props.GlobalCases
import Verif.Model.Timeout
import Verif.Props.TimeoutSpec
import Verif.Lemmas.Timeout
import Verif.Lemmas.TimeoutRun
import Verif.Props.TimeoutProps
import Verif.Props.TimeoutCases
import Verif.Model.Callback
import Verif.Lemmas.CallbackFed
import Verif.Lemmas.CallbackInv
import Verif.Lemmas.CallbackMode
import Verif.Lemmas.CallbackIter
import Verif.Props.CallbackSpec
import Verif.Props.CallbackProps
import Verif.Props.CallbackCases
import Verif.Model.Timers
import Verif.Lemmas.Timers
import Verif.Props.TimersSpec
import Verif.Props.TimersProps
import Verif.Props.TimersCases
import Verif.Model.Logs
import Verif.Lemmas.Logs
import Verif.Lemmas.LogBuf
import Verif.Props.LogsSpec
import Verif.Props.LogsProps
import Verif.Props.LogsCases
import Verif.Model.RealTime
import Verif.Props.RealTimeSpec
import Verif.Props.RealTimeProps
import Verif.Props.RealTimeCases
import Verif.Props.StdFiltersSpec
import Verif.Props.StdFiltersProps
import Verif.Props.StdFiltersCases
import Verif.Props.TranslatorsSpec
import Verif.Props.TranslatorsProps
import Verif.Props.TranslatorsCases
import Verif.Props.ChecksSpec
import Verif.Props.ChecksProps
import Verif.Props.ChecksCases
import Verif.Model.Rename
import Verif.Props.RenameSpec
import Verif.Lemmas.Rename
import Verif.Props.RenameProps
import Verif.Props.RenameCases
import Verif.Model.Player
import Verif.Props.PlayerSpec
import Verif.Lemmas.Player
import Verif.Props.PlayerProps
import Verif.Props.PlayerCases
import Verif.Model.Tags
import Verif.Props.TagsSpec
import Verif.Props.TagsProps
import Verif.Model.Source
import Verif.Props.SourceSpec
import Verif.Props.SourceProps
import Verif.Model.Recorder
import Verif.Props.RecorderSpec
import Verif.Props.RecorderProps
