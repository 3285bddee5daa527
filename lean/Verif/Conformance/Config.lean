import Verif.Model.Config

/-! # The model runs the project's own tests: config

See Conformance/Influx.  A file is given by the keys that it sets, since the
model has no TOML syntax. -/

namespace Spout.Conformance

open Conf

def testConfigFileName : Bytes := b!"some/dir/something.toml"

/-- Only the test's file exists. -/
def oneFile (l : Layer) : Bytes → FileState := fun n => if n = testConfigFileName then .decoded l else .notExist

/-- The environment of the tests: both variables are empty. -/
def noEnv : Bytes → Bytes := fun _ => []

/-- `parseConfig` of the tests. -/
def parseConfig (l : Layer) : Option Config := newConfigFromFile (oneFile l) noEnv testConfigFileName

/-- TestCorrectConfigFile -/
example : parseConfig {
      name := some b!"thor", mode := some b!"writer", port := some 10001, natsAddress := some b!"nats://localhost:4222",
      natsSubject := some [b!"spout"], natsSubjectMonitor := some b!"spout-monitor", influxDBAddress := some b!"localhost",
      influxDBProtocol := some b!"https", influxDBPort := some 8086, dbName := some b!"junk_nats", batchMaxCount := some 10,
      batchMaxSize := some (5 * MB), batchMaxAge := some minute, workers := some 96, writeTimeout := some (32 * second),
      writerRetryBatches := some 5, writerRetryInterval := some (30 * second), writerRetryTimeout := some (120 * minute),
      readBufferSize := some 43210, natsMaxPendingSize := some (100 * MB), maxTimeDelta := some (789 * second),
      statsInterval := some (5 * second), probePort := some 6789, pprofPort := some 5432 }
    = some { newDefaultConfig with
      name := b!"thor", mode := b!"writer", port := 10001, natsAddress := b!"nats://localhost:4222",
      natsSubject := [b!"spout"], natsSubjectMonitor := b!"spout-monitor", influxDBAddress := b!"localhost",
      influxDBProtocol := b!"https", influxDBPort := 8086, dbName := b!"junk_nats", batchMaxCount := 10,
      batchMaxSize := 5 * MB, batchMaxAge := minute, workers := 96, writeTimeout := 32 * second,
      writerRetryBatches := 5, writerRetryInterval := 30 * second, writerRetryTimeout := 120 * minute,
      readBufferSize := 43210, natsMaxPendingSize := 100 * MB, maxTimeDelta := 789 * second,
      statsInterval := 5 * second, probePort := 6789, pprofPort := 5432 } := by decide +kernel

/-- TestAllDefaults -/
example : parseConfig { mode := some b!"writer" } = some {
      name := b!"something", mode := b!"writer", natsAddress := b!"nats://localhost:4222", natsSubject := [b!"influx-spout"],
      natsSubjectMonitor := b!"influx-spout-monitor", natsSubjectJunkyard := b!"influx-spout-junk",
      influxDBAddress := b!"localhost", influxDBProtocol := b!"http", influxDBPort := 8086, influxDBUser := b!"",
      influxDBPass := b!"", dbName := b!"influx-spout-junk", batchMaxCount := 10, batchMaxSize := 10 * MB,
      batchMaxAge := 5 * minute, port := 0, workers := 8, writeTimeout := 30 * second, writerRetryBatches := 1,
      writerRetryInterval := 10 * second, writerRetryTimeout := minute, downsamplePeriod := 0,
      downsampleSuffix := b!"-archive", readBufferSize := 4 * MB, natsMaxPendingSize := 200 * MB,
      maxTimeDelta := 10 * minute, statsInterval := 3 * second, probePort := 0, pprofPort := 0, debug := false,
      rule := [] } := by decide +kernel

/-- TestDefaultPortListener, TestDefaultPortHTTPListener, TestDefaultPortMonitor, TestDefaultListenerBatchSize,
TestDefaultHTTPListenerBatchSize, TestDefaultDownsamplePeriod -/
example : (parseConfig { mode := some b!"listener" }).map (fun c => (c.port, c.batchMaxSize)) = some (10001, MB) ∧
    (parseConfig { mode := some b!"listener_http" }).map (fun c => (c.port, c.batchMaxSize)) = some (13337, MB) ∧
    (parseConfig { mode := some b!"monitor" }).map (·.port) = some 9331 ∧
    (parseConfig { mode := some b!"downsampler" }).map (·.downsamplePeriod) = some minute := by decide +kernel

/-- TestInfluxAuth -/
example : (newConfigFromFile (oneFile { mode := some b!"writer" })
      (fun v => if v = b!"INFLUXDB_USER" then b!"user" else if v = b!"INFLUXDB_PASS" then b!"secret" else [])
      testConfigFileName).map (fun c => (c.influxDBUser, c.influxDBPass)) = some (b!"user", b!"secret") := by decide +kernel

/-- TestNoMode, TestInvalidTOML, TestOpenError -/
example : parseConfig {} = none ∧
    newConfigFromFile (fun n => if n = testConfigFileName then .invalid b!"expected value" else .notExist) noEnv testConfigFileName
      = none ∧
    newConfigFromFile (fun _ => .notExist) noEnv b!"/does/not/exist" = none := by decide +kernel

/-- TestRulesConfig -/
example : (parseConfig { mode := some b!"listener", rule := some [
      { rtype := some b!"basic", match_ := some b!"hello", subject := some b!"hello-subject" },
      { rtype := some b!"regex", match_ := some b!"world", subject := some b!"world-subject" },
      { rtype := some b!"tags", tags := some [[b!"foo", b!"bar"], [b!"aaa", b!"zzz"]], subject := some b!"foo-subject" }] }).map
      (·.rule)
    = some [{ rtype := b!"basic", match_ := b!"hello", subject := b!"hello-subject" },
      { rtype := b!"regex", match_ := b!"world", subject := b!"world-subject" },
      { rtype := b!"tags", tags := [[b!"foo", b!"bar"], [b!"aaa", b!"zzz"]], subject := b!"foo-subject" }] := by decide +kernel

/-- The common file of TestCommonOverlay and the specific file. -/
def twoFiles (common : FileState) (l : Layer) : Bytes → FileState :=
  fun n => if n = b!"/etc/influx-spout.toml" then common else if n = testConfigFileName then .decoded l else .notExist

/-- TestCommonOverlay -/
example : (newConfigFromFile (twoFiles (.decoded { batchMaxCount := some 50, dbName := some b!"massive" })
      { mode := some b!"listener", batchMaxCount := some 100, debug := some true }) noEnv testConfigFileName).map
      (fun c => (c.mode, c.batchMaxCount, c.dbName)) = some (b!"listener", 100, b!"massive") := by decide +kernel

/-- TestInvalidTOMLInCommonConfig, TestErrorOpeningCommonFile -/
example : newConfigFromFile (twoFiles (.invalid b!"wat") { mode := some b!"listener", batchMaxCount := some 100, debug := some true })
      noEnv testConfigFileName = none ∧
    newConfigFromFile (fun _ => .unreadable b!"boom") noEnv testConfigFileName = none ∧
    readConfig (fun _ => .invalid b!"wat") commonFileName newDefaultConfig
      = .error (.other b!"/etc/influx-spout.toml: wat") := by decide +kernel

/-- TestValidateDefaults -/
example : validate { newDefaultConfig with mode := b!"writer" } = .ok () := by decide +kernel

/-- The error of `NewConfigFromFile` for a file with a mode. -/
def problem (l : Layer) : Option Bytes :=
  if parseConfig l = none then
    match validate (dynamicDefaults noEnv testConfigFileName (decodeInto newDefaultConfig l)) with
    | .error e => some e
    | .ok () => none
  else none

/-- TestValidateProblems, all cases in order -/
example : ([
    (b!"invalid mode: frog", { mode := some b!"frog" }),
    (b!"listener port out of range", { mode := some b!"listener", port := some (-1) }),
    (b!"listener port out of range", { mode := some b!"listener", port := some 65536 }),
    (b!"listener port out of range", { mode := some b!"listener_http", port := some (-1) }),
    (b!"listener port out of range", { mode := some b!"listener_http", port := some 65536 }),
    (b!"probe_port out of range", { mode := some b!"filter", probePort := some 65536 }),
    (b!"probe_port out of range", { mode := some b!"writer", probePort := some (-1) }),
    (b!"pprof_port out of range", { mode := some b!"filter", pprofPort := some 65536 }),
    (b!"pprof_port out of range", { mode := some b!"writer", pprofPort := some (-1) }),
    (b!"listener should only use one NATS subject", { mode := some b!"listener", natsSubject := some [b!"one", b!"two"] }),
    (b!"listener should only use one NATS subject", { mode := some b!"listener_http", natsSubject := some [b!"one", b!"two"] }),
    (b!"listener batch must be 1MB or smaller", { mode := some b!"listener", batchMaxSize := some 1048577 }),
    (b!"listener batch must be 1MB or smaller", { mode := some b!"listener_http", batchMaxSize := some 1048577 }),
    (b!"filter should only use one NATS subject", { mode := some b!"filter", natsSubject := some [b!"one", b!"two"] }),
    (b!"rule missing \"type\"", { mode := some b!"filter", rule := some [{ match_ := some b!"needle", subject := some b!"foo" }] }),
    (b!"rule missing \"match\"", { mode := some b!"filter", rule := some [{ rtype := some b!"basic", subject := some b!"foo" }] }),
    (b!"rule missing \"subject\"", { mode := some b!"filter", rule := some [{ rtype := some b!"basic", match_ := some b!"needle" }] }),
    (b!"basic rule cannot use \"tags\"", { mode := some b!"filter", rule := some [
      { rtype := some b!"basic", match_ := some b!"something", subject := some b!"out", tags := some [[b!"abc", b!"def"]] }] }),
    (b!"tags rule cannot use \"match\"", { mode := some b!"filter", rule := some [
      { rtype := some b!"tags", subject := some b!"out", match_ := some b!"something" }] }),
    (b!"tags rule missing \"tags\"", { mode := some b!"filter", rule := some [{ rtype := some b!"tags", subject := some b!"out" }] }),
    (b!"each tags item must contain 2 values", { mode := some b!"filter", rule := some [
      { rtype := some b!"tags", tags := some [[b!"abc", b!"def", b!"zzz"]], subject := some b!"out" }] }),
    (b!"writer needs at least one NATS subject", { mode := some b!"writer", natsSubject := some [] }),
    (b!"influxdb_protocol can only be http or https", { mode := some b!"writer", influxDBProtocol := some b!"foo" }),
    (b!"influxdb_port out of range", { mode := some b!"writer", influxDBPort := some 65536 }),
    (b!"influxdb_port out of range", { mode := some b!"writer", influxDBPort := some 0 }),
    (b!"rule missing \"type\"", { mode := some b!"writer", rule := some [{ match_ := some b!"needle" }] }),
    (b!"rule missing \"match\"", { mode := some b!"writer", rule := some [{ rtype := some b!"basic" }] }),
    (b!"writer rules shouldn't have subject (\"matches\")", { mode := some b!"writer", rule := some [
      { rtype := some b!"basic", match_ := some b!"needle", subject := some b!"matches" }] }),
    (b!"downsample_period is only for downsampler mode", { mode := some b!"filter", downsamplePeriod := some (30 * second) }),
    (b!"downsample_suffix must be set", { mode := some b!"downsampler", downsamplePeriod := some (30 * second), downsampleSuffix := some [] })
    ].all fun (p : Bytes × Layer) => decide (problem p.2 = some p.1)) = true := by decide +kernel

/-- TestTextValidateAuth -/
example : validate { newDefaultConfig with mode := b!"writer", influxDBUser := b!"hello" }
      = .error b!"$INFLUXDB_USER without $INFLUXDB_PASS" ∧
    validate { newDefaultConfig with mode := b!"writer", influxDBPass := b!"hello" }
      = .error b!"$INFLUXDB_PASS without $INFLUXDB_USER" := by decide +kernel

end Spout.Conformance
