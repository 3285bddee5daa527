import Verif.Go
import Verif.Model.Convert
import Verif.Model.Splitter
import Verif.Lemmas.Splitter
import Verif.Props.Splitter
import Verif.Spec.Decimal
import Verif.Spec.Lines
import Verif.Lemmas.Lines
import Verif.Lemmas.Convert
import Verif.Props.Convert
import Verif.Model.Influx
import Verif.Lemmas.Influx
import Verif.Lemmas.InfluxTags
import Verif.Lemmas.Timestamps
import Verif.Props.Influx
import Verif.Model.Filter
import Verif.Lemmas.Filter
import Verif.Lemmas.FilterSort
import Verif.Lemmas.Subset
import Verif.Props.FilterRules
import Verif.Lemmas.Parts
import Verif.Props.FilterIsolation
import Verif.Props.FilterRouting
import Verif.Props.FilterWorker
import Verif.Model.Batch
import Verif.Model.Listener
import Verif.Model.Downsampler
import Verif.Lemmas.Batch
import Verif.Lemmas.Listener
import Verif.Props.Batch
import Verif.Props.ListenerUDP
import Verif.Props.ListenerHTTP
import Verif.Props.ListenerAge
import Verif.Spec.Series
import Verif.Spec.Windows
import Verif.Lemmas.Downsampler
import Verif.Lemmas.Windows
import Verif.Props.DownsamplerBucket
import Verif.Props.DownsamplerWindows
import Verif.Props.DownsamplerWorker
import Verif.Model.Writer
import Verif.Spec.Writer
import Verif.Lemmas.Writer
import Verif.Lemmas.WriterSys
import Verif.Lemmas.WriterExec
import Verif.Props.WriterRetry
import Verif.Props.WriterBatch
import Verif.Props.WriterStream
import Verif.Props.WriterStats
import Verif.Props.WriterStop
import Verif.Props.WriterTimely
import Verif.Props.WriterRecovery
import Verif.Props.Settling
import Verif.Props.DeploymentSettles
import Verif.Model.Prometheus
import Verif.Spec.Metrics
import Verif.Lemmas.Prometheus
import Verif.Lemmas.Monitor
import Verif.Props.Prometheus
import Verif.Props.Monitor
import Verif.Model.Stats
import Verif.Spec.Counters
import Verif.Lemmas.Stats
import Verif.Lemmas.StatsRun
import Verif.Props.Stats
import Verif.Props.StatsSnapshot
import Verif.Model.Statistician
import Verif.Props.Statistician
import Verif.Model.Config
import Verif.Spec.Config
import Verif.Props.Config
import Verif.Props.ConfigFile
import Verif.Model.Probes
import Verif.Props.Probes
import Verif.Props.Delivery
import Verif.Model.Lifecycle
import Verif.Lemmas.Lifecycle
import Verif.Lemmas.LifecycleStop
import Verif.Lemmas.LifecycleWF
import Verif.Lemmas.LifecycleReady
import Verif.Props.Lifecycle
import Verif.Model.Tap
import Verif.Props.Tap
import Verif.Props.Benchcheck
import Verif.Spec.Query
import Verif.Model.InfluxClient
import Verif.Props.InfluxClient
import Verif.Props.ListenerResponse
import Verif.Model.Drops
import Verif.Props.Drops
import Verif.Model.Pool
import Verif.Props.Pool
import Verif.Props.ListenerLines
import Verif.Props.System
import Verif.Spec.Batching
import Verif.Props.ListenerBatching
import Verif.Props.Archive
import Verif.Spec.HappensBefore
import Verif.Model.Threads
import Verif.Lemmas.Threads
import Verif.Model.Sharing
import Verif.Props.Race
import Verif.Props.Memory
import Verif.Props.LifecycleServe
import Verif.Props.LifecycleReport
import Verif.Conformance.Downsampler
import Verif.Conformance.Listener
import Verif.Conformance.Writer
import Verif.Conformance.Prometheus
import Verif.Conformance.Config
import Verif.Conformance.EndToEnd
import Verif.Conformance.Influx
import Verif.Conformance.Filter
import Verif.Props.Handover
import Verif.Model.Deployment
import Verif.Model.Setup
import Verif.Props.DeploymentInv
import Verif.Props.Deployment
import Verif.Props.WriterCan
import Verif.Props.GroupCan
import Verif.Props.DeploymentCan
import Verif.Props.DeploymentFilters
import Verif.Props.DeploymentDowns
import Verif.Props.DeploymentWriters
import Verif.Props.DeploymentLive
import Verif.Lemmas.DeploymentExec
import Verif.Props.DeploymentArchive
import Verif.Model.Float64
import Verif.Lemmas.Float64
import Verif.Lemmas.FloatStep
import Verif.Lemmas.FloatMean
import Verif.Lemmas.FloatText
import Verif.Lemmas.FloatRead
import Verif.Spec.Float
import Verif.Props.FloatAverage
import Verif.Props.FloatText
import Verif.Spec.Order
import Verif.Props.Ordering
import Verif.Props.OrderingMessages
import Verif.Model.Backlog
import Verif.Spec.Backlog
import Verif.Props.Backlog
import Verif.Model.ConfigText
import Verif.Spec.ConfigText
import Verif.Lemmas.DurationFloat
import Verif.Lemmas.ConfigText
import Verif.Lemmas.SizeText
import Verif.Props.ConfigText
import Verif.Props.Freshness
import Verif.Spec.Store
import Verif.Props.WriterStore
import Verif.Props.StoreDelivery
import Verif.Props.DeploymentStore
import Verif.Props.DeploymentFiles
import Verif.Props.DeploymentLimits
import Verif.Props.DeploymentFilesArchive
import Verif.Props.DeploymentFilesRaw
import Verif.Props.DeploymentLoop
import Verif.Props.DownsamplerOnTime
import Verif.Props.ArchiveChain
import Verif.Props.FloatPlain
import Verif.Props.DeploymentChain
import Verif.Props.DeploymentOnTime
import Verif.Props.Schema
import Verif.Props.DeploymentSchema
import Verif.Props.DeploymentFilesChain
import Verif.Props.ArchiveStore
import Verif.Props.DeploymentArchiveStore
import Verif.Props.DownsamplerTimer
import Verif.Props.ArchiveFresh
import Verif.Props.ListenerFresh
import Verif.Props.WayThere
import Verif.Props.PageFresh
import Verif.Props.WayThereHTTP
import Verif.Props.CrashLoss
import Verif.Props.FreshWindow
import Verif.Props.SendFresh
