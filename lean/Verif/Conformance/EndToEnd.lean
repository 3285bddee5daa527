import Verif.Conformance.Downsampler
import Verif.Conformance.Listener
import Verif.Conformance.Writer
import Verif.Conformance.Prometheus
import Verif.Conformance.Config
import Verif.Model.Statistician

/-! # The model runs the project's own end-to-end test

cmd/influx-spout/e2e_large_test.go: TestEndToEnd.  Everything that the two
listeners publish goes through the filter, the writer, the downsampler and the
archive writer; the databases and the page served by the monitor are those that
the test expects.  The configuration of every component is the one that the
model of package `config` makes of the test's files. -/

namespace Spout.Conformance

open Prom

/-- The configuration from a file. -/
def fileConf (name : Bytes) (l : Conf.Layer) : Conf.Config :=
  match Conf.newConfigFromFile (fun n => if n = name then .decoded l else .notExist) noEnv name with
  | some c => c
  | none => {}

def listenerConf : Conf.Config := fileConf b!"listener.toml"
  { mode := some b!"listener", port := some 44602, batchMaxCount := some 5, debug := some true, natsSubjectMonitor := some b!"monitor" }
def httpListenerConf : Conf.Config := fileConf b!"listener.toml"
  { mode := some b!"listener_http", port := some 44603, batchMaxCount := some 5, debug := some true, natsSubjectMonitor := some b!"monitor" }
def filterConf : Conf.Config := fileConf b!"filter.toml"
  { mode := some b!"filter", debug := some true, natsSubjectMonitor := some b!"monitor",
    rule := some [{ rtype := some b!"basic", match_ := some b!"cpu", subject := some b!"system" }] }
def downsamplerConf : Conf.Config := fileConf b!"downsampler.toml"
  { mode := some b!"downsampler", debug := some true, natsSubjectMonitor := some b!"monitor", natsSubject := some [b!"system"],
    downsamplePeriod := some (3 * Conf.second) }
def writerConf (name subject db : Bytes) : Conf.Config := fileConf (name ++ b!".toml")
  { mode := some b!"writer", name := some name, natsSubject := some [subject], influxDBPort := some 44601, dbName := some db,
    batchMaxCount := some 1, workers := some 4, debug := some true, natsSubjectMonitor := some b!"monitor" }

def lconfOf (c : Conf.Config) : LConf := ⟨c.batchMaxCount, c.batchMaxAge, c.batchMaxSize⟩
def wconfOf (c : Conf.Config) : WConf :=
  ⟨c.batchMaxCount, c.batchMaxSize, c.batchMaxAge, [], c.writerRetryBatches, c.writerRetryInterval, c.writerRetryTimeout⟩

/-- When the lines are sent: `makeTestLines` at a time in the first window. -/
def t0 : Int := at_ 0 + 100
def testLines : Bytes :=
  b!"foo,env=dev bar=99 " ++ itoa t0 ++ b!"\ncpu,cls=server,env=prod user=13.33,usage_system=0.16,usage_idle=86.53 " ++ itoa t0 ++ b!"\n"

/-- A writer over some messages: the bodies of its requests and its counters. -/
def written (c : Conf.Config) (msgs : List Bytes) : Option (List Bytes × WStats) :=
  (execs (wconfOf c) (.start (wconfOf c) 131072 t0) (.arm :: msgs.flatMap one)).map fun s => ((requests s).map (·.1), s.stats)

/-- What the test looks at. -/
structure Outcome where
  db : List Bytes
  archive : List Bytes
  page : Bytes
  deriving DecidableEq

/-- The messages of the filter over some batches. -/
def filtered : FWorker → FStats → List Bytes → Go (FStats × List Pub)
  | _, st, [] => return (st, [])
  | w, st, m :: ms => do
    let (w, st, pubs) ← w.processBatch insertionSorter st t0 (fun _ => false) m
    let (st, rest) ← filtered w st ms
    return (st, pubs ++ rest)

def on (subject : Bytes) (pubs : List Pub) : List Bytes := (pubs.filter (·.subject = subject)).map Pub.data

/-- The counters by name. -/
def lsnap (s : LStats) : List (Bytes × Nat) :=
  [(b!"received", s.received), (b!"sent", s.sent), (b!"read_errors", s.readErrors), (b!"failed_nats_publish", s.failedPublish)]
def fsnap (s : FStats) : List (Bytes × Nat) :=
  [(b!"passed", s.passed), (b!"processed", s.processed), (b!"rejected", s.rejected), (b!"invalid_time", s.invalidTime),
   (b!"failed_nats_publish", s.failedPublish), (b!"nats_dropped", 0)]
def dsnap (s : DStats) : List (Bytes × Nat) :=
  [(b!"received", s.received), (b!"sent", s.sent), (b!"invalid_lines", s.invalidLines),
   (b!"invalid_timestamps", s.invalidTimestamps), (b!"failed_nats_publish", s.failedPublish)]
def wsnap (s : WStats) : List (Bytes × Nat) :=
  [(b!"received", s.received), (b!"write_requests", s.writeRequests), (b!"failed_writes", s.failedWrites)]

/-- The monitor over some messages: the page served. -/
def monitored : MetricSet → List Bytes → Go Bytes
  | set, [] => do return (← setToBytes insertionSorter idOrder set).1
  | set, m :: ms => do monitored (← receiveMetrics insertionSorter idOrder set m) ms

/-- Two events of a downsampler for messages, then the ends of windows. -/
def archived (c : Conf.Config) (msgs : List Bytes) : Go (List Bytes × DStats) := do
  let w := DWorker.new floats c.downsamplePeriod (at_ 0)
  let w ← w.run insertionSorter (msgs.map (fun m => ⟨.msg m (fun _ => t0), t0, idOrder, fun _ => false⟩)
    ++ [3, 6, 9, 12].map (fun s => ⟨.timeout, at_ s, idOrder, fun _ => false⟩))
  return (w.pubs.map LPub.data, w.stats)

/-- The test. -/
def endToEnd : Go (Option Outcome) := do
  let (a, la) ← udp (lconfOf listenerConf) (List.replicate 5 (datagram t0 testLines))
  let (b, lb) ← http (lconfOf httpListenerConf) (List.replicate 5 (post [] testLines))
  match ← Conf.ruleSetFromConfig (fun _ => none) filterConf.rule with
  | none => return none
  | some rules =>
    let (fst, pubs) ← filtered (FWorker.new filterConf.maxTimeDelta rules filterConf.natsSubjectJunkyard) (FStats.init rules.length) (a ++ b)
    let (arch, dst) ← archived downsamplerConf (on b!"system" pubs)
    let wc := writerConf b!"writer" b!"system" b!"test"
    let ac := writerConf b!"archive-writer" b!"system-archive" b!"test-archive"
    match written wc (on b!"system" pubs), written ac arch with
    | some (db, wst), some (adb, ast) =>
      -- the timestamps of the metrics are stripped by the test
      let page ← monitored [] (
        listenerStats insertionSorter idOrder listenerConf.name b!"h" (lsnap la) 0
        ++ listenerStats insertionSorter idOrder httpListenerConf.name b!"h" (lsnap lb) 0
        ++ filterStats insertionSorter idOrder filterConf.name b!"h" (fsnap fst) (rules.map (·.subject)) fst.triggered 0
        ++ downsamplerStats insertionSorter idOrder downsamplerConf.name b!"h" (dsnap dst) downsamplerConf.natsSubject [0] 0
        ++ writerStats insertionSorter idOrder (writerLabels wc.name b!"h" wc.influxDBAddress wc.influxDBPort wc.dbName) (wsnap wst)
          [(b!"system", some 0)] 0
        ++ writerStats insertionSorter idOrder (writerLabels ac.name b!"h" ac.influxDBAddress ac.influxDBPort ac.dbName) (wsnap ast)
          [(b!"system-archive", some 0)] 0)
      return some ⟨splitAfterNL db.flatten |>.filter (· ≠ []), splitAfterNL adb.flatten |>.filter (· ≠ []), page⟩
    | _, _ => return none

/-- The page that the test expects (without its last character, which is the regular expression's end of text). -/
def expectedPage : Bytes := b!"failed_nats_publish{component=\"downsampler\",host=\"h\",name=\"downsampler\"} 0
failed_nats_publish{component=\"filter\",host=\"h\",name=\"filter\"} 0
failed_nats_publish{component=\"listener\",host=\"h\",name=\"listener\"} 0
failed_writes{component=\"writer\",host=\"h\",influxdb_address=\"localhost\",influxdb_dbname=\"test\",influxdb_port=\"44601\",name=\"writer\"} 0
failed_writes{component=\"writer\",host=\"h\",influxdb_address=\"localhost\",influxdb_dbname=\"test-archive\",influxdb_port=\"44601\",name=\"archive-writer\"} 0
invalid_lines{component=\"downsampler\",host=\"h\",name=\"downsampler\"} 0
invalid_timestamps{component=\"downsampler\",host=\"h\",name=\"downsampler\"} 0
invalid_time{component=\"filter\",host=\"h\",name=\"filter\"} 0
nats_dropped{component=\"downsampler\",host=\"h\",name=\"downsampler\",subject=\"system\"} 0
nats_dropped{component=\"filter\",host=\"h\",name=\"filter\"} 0
nats_dropped{component=\"writer\",host=\"h\",influxdb_address=\"localhost\",influxdb_dbname=\"test\",influxdb_port=\"44601\",name=\"writer\",subject=\"system\"} 0
nats_dropped{component=\"writer\",host=\"h\",influxdb_address=\"localhost\",influxdb_dbname=\"test-archive\",influxdb_port=\"44601\",name=\"archive-writer\",subject=\"system-archive\"} 0
passed{component=\"filter\",host=\"h\",name=\"filter\"} 10
processed{component=\"filter\",host=\"h\",name=\"filter\"} 20
read_errors{component=\"listener\",host=\"h\",name=\"listener\"} 0
received{component=\"downsampler\",host=\"h\",name=\"downsampler\"} 2
received{component=\"listener\",host=\"h\",name=\"listener\"} 5
received{component=\"writer\",host=\"h\",influxdb_address=\"localhost\",influxdb_dbname=\"test\",influxdb_port=\"44601\",name=\"writer\"} 2
received{component=\"writer\",host=\"h\",influxdb_address=\"localhost\",influxdb_dbname=\"test-archive\",influxdb_port=\"44601\",name=\"archive-writer\"} 1
rejected{component=\"filter\",host=\"h\",name=\"filter\"} 10
sent{component=\"downsampler\",host=\"h\",name=\"downsampler\"} 1
sent{component=\"listener\",host=\"h\",name=\"listener\"} 1
triggered{component=\"filter\",host=\"h\",name=\"filter\",rule=\"system\"} 10
write_requests{component=\"writer\",host=\"h\",influxdb_address=\"localhost\",influxdb_dbname=\"test\",influxdb_port=\"44601\",name=\"writer\"} 2
write_requests{component=\"writer\",host=\"h\",influxdb_address=\"localhost\",influxdb_dbname=\"test-archive\",influxdb_port=\"44601\",name=\"archive-writer\"} 1
"

/-- TestEndToEnd: ten lines in the database, one in the archive, and the expected page.  (Averages are printed with the
fields in order of their names; the test only looks at the beginning of the archived line.) -/
example : endToEnd = .ok (some ⟨
    List.replicate 10 (b!"cpu,cls=server,env=prod user=13.33,usage_system=0.16,usage_idle=86.53 " ++ itoa t0 ++ b!"\n"),
    [b!"cpu,cls=server,env=prod usage_idle=86.53,usage_system=0.16,user=13.33 " ++ itoa (at_ 3) ++ b!"\n"],
    expectedPage⟩) := by decide +kernel

end Spout.Conformance
