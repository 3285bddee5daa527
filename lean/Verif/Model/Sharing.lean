import Verif.Model.Threads

/-! # The memory that the goroutines of a component share

For each component: which goroutines it starts, in what order each of them reads and writes the memory it shares with
others, where it takes the mutex, and where it uses atomic operations.  Values are left out, so that every branch may go
either way and every loop run any number of times.  Left out, too, are the local variables of a goroutine, the insides of the
libraries (NATS, net/http, log), which are taken to synchronise themselves, and the bytes of the messages handed over
through channels, for which see `Model/Handover.lean`. -/

namespace Spout.Sharing
open Threads

/-- Shared memory. The fields are cited below. Named after the fields in /repo. -/
inductive Loc where
  | conf          -- the configuration (config/config.go:38-71)
  | nc            -- the field `nc` of a component
  | stats         -- the field `stats` of a component
  | index         -- the map of a Stats (stats/stats.go:35-38)
  | counts        -- the slice of counters, not its elements (stats/anonstats.go:30-32)
  | counters      -- the counters
  | ruleCounts    -- the slice of the filter's counters of rules
  | ruleCounters  -- these counters
  | dropCounts    -- the downsampler's slice of counters of dropped messages, and the field
  | dropCounters  -- these counters
  | probes        -- the field `probes` of a component
  | pfields       -- the fields of a probes.listener (probes/probes.go:78-83)
  | pserver       -- the http.Server of the probes, set up (probes/probes.go:57-67)
  | alive         -- the value of liveness
  | ready         -- the value of readiness
  | stop          -- the field `stop` of a component
  | batch         -- the field `batch` of a listener
  | batchData     -- the fields and the buffer of a batch.Batch (batch/batch.go:45-49)
  | hserver       -- the http.Server of the listener or monitor
  | jobs          -- the variable with the channel of jobs
  | rules         -- the rules
  | workBatches   -- the buffers of one worker of the filter (filter/worker.go:36-37)
  | sub           -- the field `sub` of a component
  | subs          -- the subscriptions (field or variable)
  | metrics       -- the field `metrics` of a monitor
  | metricSet     -- the set of metrics, with the metrics
  | client        -- the fields of an influxClient (writer/influxclient.go:46-52)
  | retryFields   -- the fields of a retryWorker, without the queue (writer/retryworker.go:64-73)
  | queue         -- the queue of a retryWorker (writer/retryworker.go:152-156)
  deriving DecidableEq

/-- All of them. Nothing in /repo. -/
def Loc.all : List Loc :=
  [.conf, .nc, .stats, .index, .counts, .counters, .ruleCounts, .ruleCounters, .dropCounts, .dropCounters, .probes, .pfields, .pserver,
   .alive, .ready, .stop, .batch, .batchData, .hserver, .jobs, .rules, .workBatches, .sub, .subs, .metrics, .metricSet, .client,
   .retryFields, .queue]

/-- The mutex `mu` of a listener (listener/listener.go:113) or monitor (monitor/monitor.go:78). -/
inductive Mu where
  | mu
  deriving DecidableEq

/-- Kinds of goroutines. The `go` statements are cited below. Named after the functions in /repo. -/
inductive Kind where
  | main          -- the one that starts and stops the component
  | probeServer   -- probes/probes.go:70-73
  | probeHandler  -- a request to the probes, served by net/http
  | statistician
  | udp           -- listener/listener.go:181-212
  | oldBatch      -- listener/listener.go:229-247
  | httpServer    -- listener/listener.go:348-363, monitor/monitor.go:110-140
  | httpServe     -- listener/listener.go:351-358, monitor/monitor.go:128-135
  | httpHandler   -- a request, served by net/http
  | worker        -- of a filter, writer or downsampler
  | theWorker     -- one of the filter's workers, singled out to speak of its buffers
  | callback      -- the goroutine of a NATS subscription, which calls the handler
  | retry         -- writer/retryworker.go:88-121
  | transport     -- a goroutine of net/http that sends a request
  deriving DecidableEq

/-- A program over this memory (`Model/Threads.lean`). Go semantics. -/
abbrev P := Prog Loc Mu Kind

/-- Read `v`. Go semantics. -/
def rd (v : Loc) : P := .op (.rd v)
/-- Write `v`. Go semantics. -/
def wr (v : Loc) : P := .op (.wr v)
/-- An atomic operation on `v`. Go semantics. -/
def atom (v : Loc) : P := .op (.atom v)
/-- `go`: start a goroutine. Go semantics. -/
def start (k : Kind) : P := .op (.go k)
/-- Statements one after the other. Go semantics. -/
def block : List P → P
  | [] => .skip
  | p :: l => .seq p (block l)
/-- Reads one after the other. Go semantics. -/
def rds (l : List Loc) : P := block (l.map rd)
/-- Writes one after the other. Go semantics. -/
def wrs (l : List Loc) : P := block (l.map wr)
/-- Perhaps. A Go `if`. -/
def opt (p : P) : P := .alt p .skip
/-- Any number of times. A Go `for`. -/
def loop (l : List P) : P := .star (block l)
/-- `mu.Lock(); …; mu.Unlock()`. listener/listener.go:232-234, monitor/monitor.go:118-120. -/
def locked (l : List P) : P := block [.op (.lock .mu), block l, .op (.unlock .mu)]

/-! ## stats and probes -/

/-- stats/stats.go:22-31, with stats/anonstats.go:22-26 -/
def statsNew : P := wrs [.index, .counters, .counts]

/-- stats/stats.go:48-50 and 58-64, stats/anonstats.go:42-44; the same accesses as `Get` and `Max` -/
def inc : P := block [rds [.index, .counts], atom .counters]

/-- stats/stats.go:77-83 -/
def snapshot : P := loop [inc]

/-- probes/probes.go:49-76; the null listener if there is no port. -/
def probesListen : P := opt (block [wrs [.pfields, .pserver], rd .pfields, atom .alive, atom .ready, wr .pserver, start .probeServer])

/-- probes/probes.go:85-91 -/
def setReady : P := block [rd .probes, opt (block [rd .pfields, atom .ready])]
/-- probes/probes.go:85-87 -/
def setAlive : P := block [rd .probes, opt (block [rd .pfields, atom .alive])]

/-- probes/probes.go:93-96 -/
def probesClose : P := block [rd .probes, opt (rds [.pfields, .pserver])]

/-- probes/probes.go:70-73; net/http starts a goroutine for each connection. -/
def probeServer : P := block [rds [.pfields, .pserver], loop [start .probeHandler]]

/-- probes/probes.go:98-106 -/
def probeHandler : P := block [rd .pserver, loop [.alt (atom .alive) (atom .ready)]]

/-! ## The listener (listener/listener.go) -/

/-- listener/listener.go:118-126 -/
def listenerStop : P := block [setReady, setAlive, rd .stop, rd .nc, probesClose]

/-- listener/listener.go:128-149; the configuration was written before. -/
def newListener (rest : P) : P :=
  block [wr .conf, statsNew, probesListen, wr .batchData, wrs [.conf, .stop, .stats, .probes, .batch], rd .conf, .alt .skip (block [wr .nc, rest])]

/-- listener/listener.go:390-411 -/
def sendBatch : P :=
  block [rds [.batch, .batchData], opt (block [rd .stats, inc, rds [.batch, .batchData], loop [rds [.nc, .conf, .batchData], opt (block [rd .stats, inc])], rd .batch, wr .batchData])]

/-- listener/listener.go:365-388 -/
def maybeSendBatch : P := block [rds [.batch, .batchData, .conf], opt sendBatch]

/-- listener/listener.go:417-429 -/
def listenerStatistician : P := block [rd .conf, loop [rd .stats, snapshot, rds [.nc, .conf, .stop]]]

/-- 181-212, with `ReadOnceFrom` and `EnsureNewline` (batch/batch.go:130-171) -/
def listenUDP : P :=
  block [setReady, loop [rds [.batch, .batchData], wr .batchData, opt (block [rd .stats, inc]),
    opt (block [rd .conf, rd .stats, inc, rds [.batch, .batchData], opt (wr .batchData)]), maybeSendBatch, rd .stop]]

/-- listener/listener.go:56-79: if there is no socket, the listener is stopped. -/
def udpMain : P :=
  newListener (block [rd .conf, .alt listenerStop (block [start .statistician, start .udp, rd .conf, opt listenerStop])])

/-- listener/listener.go:229-247 -/
def oldBatchSender : P :=
  loop [locked [rds [.conf, .batch, .batchData]], rd .stop, opt (locked [rds [.batch, .batchData, .conf], opt sendBatch])]

/-- 249-265, with 267-311, and `ReadFrom` and `Append` (batch/batch.go:100-127) -/
def handleHTTPWrite : P :=
  block [
    .alt (locked [rd .batch, rd .batchData, wr .batchData])
         (loop [opt (locked [rd .batch, rd .batchData, wr .batchData])]),
    opt (block [rd .conf, rd .stats, inc, locked [maybeSendBatch]]),
    opt (block [rd .stats, inc])]

/-- listener/listener.go:84-98, with 214-224 -/
def httpMain : P :=
  newListener (block [start .oldBatch, rd .conf, wr .hserver, start .statistician, start .httpServer, rd .conf, opt listenerStop])

/-- listener/listener.go:348-363 -/
def listenHTTP : P := block [start .httpServe, rds [.stop, .hserver]]

/-- listener/listener.go:351-358 -/
def serve : P := block [setReady, rd .hserver, loop [start .httpHandler]]

/-! ## The filter (filter/filter.go, filter/worker.go) -/

/-- filter.go:142-159 -/
def filterStop : P := block [setReady, setAlive, rd .sub, rd .stop, rd .nc, probesClose]

/-- filter.go:71-86, with `newWorker` (worker.go:40-70): a worker other than the one singled out. -/
def filterStartWorker : P := block [rds [.conf, .rules], rds [.jobs, .stop], start .worker]

/-- The same for the one singled out. filter/filter.go:71-86. -/
def filterStartTheWorker : P := block [rds [.conf, .rules], wr .workBatches, rds [.jobs, .stop], start .theWorker]

/-- filter.go:44-113; the handler is called from line 92 on. -/
def filterMain : P :=
  block [wr .conf, rd .conf, probesListen, wrs [.conf, .stop, .probes], rd .conf,
    .alt filterStop (block [wr .rules, statsNew, rd .rules, wrs [.ruleCounters, .ruleCounts], rd .conf, wr .nc,
      .alt filterStop (block [wr .jobs, loop [filterStartWorker], opt filterStartTheWorker, loop [filterStartWorker],
        .alt filterStop (block [rds [.nc, .conf], start .callback, wr .sub, rds [.sub, .conf],
          .alt filterStop (block [start .statistician, rds [.conf, .rules], setReady, opt filterStop])])])])]

/-- worker.go:72-161, without the worker's own buffers -/
def filterWorker : P :=
  loop [loop [inc, rd .rules, opt (block [inc, rd .ruleCounts, atom .ruleCounters])], rd .rules, loop [opt inc]]

/-- worker.go:72-161 -/
def filterTheWorker : P :=
  loop [loop [inc, rd .rules, opt (block [rd .workBatches, wr .workBatches, inc, rd .ruleCounts, atom .ruleCounters])],
    rd .rules, loop [rd .workBatches, opt inc, wr .workBatches]]

/-- filter.go:92-97 -/
def filterCallback : P := loop [rds [.conf, .jobs]]

/-- filter.go:164-204 -/
def filterStatistician : P :=
  block [rd .conf, loop [rd .sub, opt inc, snapshot, rd .ruleCounts, loop [atom .ruleCounters], rds [.nc, .conf], rd .rules,
    loop [rds [.nc, .conf]], rds [.conf, .stop]]]

/-! ## The writer (writer/writer.go, writer/retryworker.go) -/

/-- writer/writer.go:134-145 -/
def writerStop : P := block [setReady, setAlive, rds [.stop, .nc], probesClose]

/-- writer/writer.go:60-129 -/
def writerMain : P :=
  block [wr .conf, statsNew, probesListen, wrs [.conf, .stats, .probes, .stop], rd .conf, wr .rules,
    .alt writerStop (block [rd .conf, wr .nc,
      .alt writerStop (block [wr .jobs, rd .conf, loop [rd .jobs, start .worker], wr .subs,
        loop [rds [.conf, .nc], start .callback, rd .subs, wr .subs],
        .alt writerStop (block [rd .nc, rd .subs, start .statistician, rd .conf, setReady, opt writerStop])])])]

/-- writer/writer.go:147-243, without what belongs to the worker (see `workerMain`) -/
def writerWorker : P :=
  block [rds [.conf, .rules], loop [opt (block [rd .stats, inc]), rd .rules, rd .stop, rd .conf, opt (block [rd .stats, inc, rd .conf, loop [opt (block [rd .stats, inc])]])]]

/-- writer/writer.go:94-100 -/
def writerCallback : P := loop [rd .jobs]

/-- writer/writer.go:247-285 -/
def writerStatistician : P := block [rd .conf, loop [rd .stats, snapshot, rds [.nc, .conf], loop [rds [.subs, .nc, .conf]], rd .nc, rds [.conf, .stop]]]

/-- writer/writer.go:190-209 -/
def workerSend (write : P) : P := block [rd .batchData, loop [rd .batchData, write, opt (rd .batchData)], wr .batchData]

/-- The worker (writer/writer.go:147-212) as the first goroutine, with the memory that it creates itself; `write` is a call of `dbClient.Write`. -/
def workerMain (write : P) : P :=
  block [wr .conf, rd .conf, wr .client, opt (block [wr .queue, wr .retryFields, rd .conf, start .retry, rd .retryFields]), wr .batchData,
    loop [rd .conf, opt (block [rd .batchData, wr .batchData]), rd .batchData, opt (workerSend write)], opt (rd .retryFields)]

/-- writer/influxclient.go:56-83, if the request has been sent, or given up, when `Do` returns. -/
def write : P := block [rd .client, rd .batchData]

/-- writer/influxclient.go:56-83, if a goroutine of net/http may still be sending the request when `Do` returns. -/
def writeAsync : P := block [rd .client, start .transport]

/-- writer/retryworker.go:88-121 and 137-225 -/
def retryLoop : P :=
  block [rd .retryFields, loop [rd .queue, rd .retryFields, .alt (block [rd .queue, wr .queue]) (block [rd .queue, opt (wr .queue), opt (block [rd .client, opt (wr .queue)])])]]

/-! ## The downsampler (downsampler/downsampler.go) -/

/-- downsampler/downsampler.go:118-137 -/
def downStop : P := block [setReady, setAlive, rd .stop, rd .subs, rd .nc, probesClose]

/-- downsampler/downsampler.go:55-113; the handler is called from line 84 on. -/
def downMain : P :=
  block [wr .conf, probesListen, statsNew, wrs [.dropCounters, .dropCounts], wrs [.conf, .probes, .stop, .stats], rd .conf, wr .nc,
    .alt downStop (block [rd .conf, loop [rd .conf, start .worker, rd .nc, start .callback, rd .subs, wr .subs],
      .alt downStop (block [rd .nc, start .statistician, rd .conf, setReady, opt downStop])])]

/-- downsampler/downsampler.go:139-180; the buckets belong to the worker. -/
def downWorker : P :=
  block [rd .conf, loop [opt (block [rd .stats, inc, loop [rd .conf, rd .stats, inc]]), rd .stop, opt (block [rd .conf, loop [rd .nc, opt (block [rd .stats, inc])], rd .stats, inc])]]

/-- downsampler/downsampler.go:185-226 -/
def downStatistician : P :=
  block [rd .conf, loop [rd .stats, snapshot, rd .subs, loop [rd .dropCounts, atom .dropCounters], rds [.nc, .conf], loop [rds [.nc, .conf]], rds [.conf, .stop]]]

/-! ## The monitor (monitor/monitor.go) -/

/-- monitor/monitor.go:83-100 -/
def monitorStop : P := block [setReady, setAlive, rd .sub, rd .stop, rd .nc, probesClose]

/-- monitor/monitor.go:33-65; the handler is called from line 51 on. -/
def monitorMain : P :=
  block [wr .conf, wr .metricSet, probesListen, wrs [.conf, .stop, .metrics, .probes], rd .conf, wr .nc,
    .alt monitorStop (block [rds [.nc, .conf], start .callback, wr .sub,
      .alt monitorStop (block [rd .nc, start .httpServer, rd .conf, opt monitorStop])])]

/-- monitor/monitor.go:110-140, without the server that the goroutine creates (see `serveMain`) -/
def monitorServe : P := block [rd .conf, start .httpServe, rd .stop]

/-- monitor/monitor.go:128-135, likewise -/
def monitorServe2 : P := block [setReady, loop [start .httpHandler]]

/-- monitor/monitor.go:114-121 -/
def monitorHandler : P := loop [locked [rds [.metrics, .metricSet]]]

/-- `serveHTTP` (monitor/monitor.go:110-140) as the first goroutine, with the server. -/
def serveMain : P := block [wr .hserver, start .httpServe, rd .hserver]

/-- monitor/monitor.go:142-152 -/
def receiveMetrics : P := loop [opt (locked [rds [.metrics, .metricSet], wr .metricSet])]

/-! ## Components -/

/-- The components: cmd/influx-spout/main.go:98-115. -/
inductive Component where
  | udpListener
  | httpListener
  | filter
  | writer
  | writerWorker
  | downsampler
  | monitor
  | monitorServer

/-- The program of each kind of goroutine of a component. The functions are cited above. The functions of /repo that they run are cited above. -/
def prog : Component → Kind → P
  | .udpListener, .main => udpMain
  | .udpListener, .statistician => listenerStatistician
  | .udpListener, .udp => listenUDP
  | .httpListener, .main => httpMain
  | .httpListener, .statistician => listenerStatistician
  | .httpListener, .oldBatch => oldBatchSender
  | .httpListener, .httpServer => listenHTTP
  | .httpListener, .httpServe => serve
  | .httpListener, .httpHandler => block [rd .hserver, loop [handleHTTPWrite]]
  | .filter, .main => filterMain
  | .filter, .worker => filterWorker
  | .filter, .theWorker => filterTheWorker
  | .filter, .callback => filterCallback
  | .filter, .statistician => filterStatistician
  | .writer, .main => writerMain
  | .writer, .worker => writerWorker
  | .writer, .callback => writerCallback
  | .writer, .statistician => writerStatistician
  | .writerWorker, .main => workerMain write
  | .writerWorker, .retry => retryLoop
  | .downsampler, .main => downMain
  | .downsampler, .worker => downWorker
  | .downsampler, .statistician => downStatistician
  | .monitor, .main => monitorMain
  | .monitor, .callback => receiveMetrics
  | .monitor, .httpServer => monitorServe
  | .monitor, .httpServe => monitorServe2
  | .monitor, .httpHandler => monitorHandler
  | .monitorServer, .main => serveMain
  | .monitorServer, .httpServe => block [rd .hserver, loop [start .httpHandler]]
  | .monitorServer, .httpHandler => rd .hserver
  | _, .probeServer => probeServer
  | _, .probeHandler => probeHandler
  | _, _ => .skip

/-- The writer's worker if requests may still be being sent when `Do` returns, as net/http allows (net/http, type RoundTripper: the
body may be closed "in a separate goroutine even after RoundTrip returns"). writer/writer.go:193, writer/influxclient.go:65. -/
def asyncProg : Kind → P
  | .main => workerMain writeAsync
  | .retry => retryLoop
  | .transport => rd .batchData
  | _ => .skip

end Spout.Sharing
