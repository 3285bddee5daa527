import Verif.Lemmas.Filter
import Verif.Model.Prometheus
import Verif.Model.Stats
import Verif.Props.DownsamplerBucket

/-! # The model runs the project's own tests: prometheus, stats, monitor

See Conformance/Influx.  A metric of a test is given to the model as a line of
text where the test builds it by hand. -/

namespace Spout.Conformance

open Prom

/-- The contents of a parsed metric. -/
def view (m : Metric) : VMetric := ⟨m.mem.take m.nameLen, m.labels.map (·.get m.mem), m.value, m.millis⟩

/-- `ParseMetric`, with the contents of the result. -/
def parseView (s : Bytes) : Go (Except PErr VMetric) := do return (← parseMetric s).map view

/-- prometheus/parse_small_test.go: TestParseBasic, TestParseLabel, TestParseEmptyLabels, TestParseMultipleLabels,
TestParseTimestamp, TestParseLabelsAndTimestamp -/
example : ([
    (b!"foo 42", ⟨b!"foo", [], 42, 0⟩),
    (b!"foo{method=\"post\"} 2", ⟨b!"foo", [⟨b!"method", b!"post"⟩], 2, 0⟩),
    (b!"foo{} 2", ⟨b!"foo", [], 2, 0⟩),
    (b!"foo{method=\"post\",code=\"200\"} 2", ⟨b!"foo", [⟨b!"method", b!"post"⟩, ⟨b!"code", b!"200"⟩], 2, 0⟩),
    (b!"foo 42 1234567", ⟨b!"foo", [], 42, 1234567⟩),
    (b!"foo{host=\"nyc01\",bar=\"definitely\",thing=\"forgot\"} 42 123456789",
      ⟨b!"foo", [⟨b!"host", b!"nyc01"⟩, ⟨b!"bar", b!"definitely"⟩, ⟨b!"thing", b!"forgot"⟩], 42, 123456789⟩)
    ].all fun (p : Bytes × VMetric) => decide (parseView p.1 = .ok (.ok p.2))) = true := by decide +kernel

/-- prometheus/parse_small_test.go: the tests of errors -/
example : ([
    (b!"", .invalidMetric),
    (b!"what", .noValue),
    (b!"what ", .invalidValue),
    (b!"foo 12.32", .invalidValue),
    (b!"foo bar", .invalidValue),
    (b!"foo{method=\"post\"/code=\"200\"} 2", .invalidSeparator),
    (b!"foo{method} 2", .invalidLabel),
    (b!"foo{method=\"post\" 2", .invalidSeparator),
    (b!"foo{method=post} 2", .invalidLabel),
    (b!"foo{method=\"post} 2", .missingQuote),
    (b!"foo 42 abc", .invalidTimestamp),
    (b!"foo 42 ", .invalidTimestamp)
    ].all fun (p : Bytes × PErr) => decide (parseView p.1 = .ok (.error p.2))) = true := by decide +kernel

/-- The metrics of a message, with their keys. -/
def parseAll (s : Bytes) : Go (Except PErr (List (Bytes × VMetric))) := do
  return (← parseMetrics insertionSorter s).map fun set => set.map fun p => (p.1, view p.2)

/-- prometheus/parse_small_test.go: TestParseMetrics (labels are sorted by the computation of the key, as in the test's
expected set) -/
example : parseAll b!"foo{host=\"nyc01\",bar=\"definitely\",thing=\"forgot\"} 42 11111111\nfoo{host=\"nyc02\",bar=\"maybe\"} 999 22222222\nbar 1234"
    = .ok (.ok [
      (b!"foo{bar=\"definitely\",host=\"nyc01\",thing=\"forgot\"}",
        ⟨b!"foo", [⟨b!"bar", b!"definitely"⟩, ⟨b!"host", b!"nyc01"⟩, ⟨b!"thing", b!"forgot"⟩], 42, 11111111⟩),
      (b!"foo{bar=\"maybe\",host=\"nyc02\"}", ⟨b!"foo", [⟨b!"bar", b!"maybe"⟩, ⟨b!"host", b!"nyc02"⟩], 999, 22222222⟩),
      (b!"bar{}", ⟨b!"bar", [], 1234, 0⟩)]) := by decide +kernel

/-- prometheus/parse_small_test.go: TestParseMetricsBlankLines, TestParseMetricsLastWins, TestParseMetricsEmpty -/
example :
    parseAll b!"\nfoo 111\n\nbar 222\n\n" = .ok (.ok [(b!"foo{}", ⟨b!"foo", [], 111, 0⟩), (b!"bar{}", ⟨b!"bar", [], 222, 0⟩)]) ∧
    parseAll b!"foo 1\nfoo 2\nfoo 3\nfoo 4\nfoo 5\nfoo 6\n" = .ok (.ok [(b!"foo{}", ⟨b!"foo", [], 6, 0⟩)]) ∧
    parseAll b!"" = .ok (.ok []) := by decide +kernel

/-- The set after some metrics, rendered. -/
def served (lines : List Bytes) : Go Bytes := do
  let set ← lines.foldlM (init := ([] : MetricSet)) fun set l => do
    match ← parseMetric l with
    | .ok m => return update insertionSorter set m
    | .error _ => return set
  return (← setToBytes insertionSorter idOrder set).1

/-- prometheus/metricset_small_test.go: TestNew, TestAddition, TestUpdate -/
example : served [] = .ok b!"" ∧ served [b!"foo 1", b!"bar 2"] = .ok b!"bar 2\nfoo 1\n" ∧
    served [b!"foo 1 100", b!"foo 2 200"] = .ok b!"foo 2 200\n" := by decide +kernel

/-- prometheus/metricset_small_test.go: TestUpdateWithLabels -/
example : served [b!"temp{host=\"nyc02\",core=\"0\"} 55 100", b!"temp{host=\"nyc02\",core=\"1\"} 56 100",
      b!"temp{host=\"auk01\",core=\"0\"} 44 100", b!"temp{host=\"auk02\",core=\"0\"} 45 101",
      b!"temp{host=\"nyc02\",core=\"0\"} 66 150", b!"temp{host=\"auk02\",core=\"0\"} 98 151"]
    = .ok b!"temp{core=\"0\",host=\"auk01\"} 44 100\ntemp{core=\"0\",host=\"auk02\"} 98 151\ntemp{core=\"0\",host=\"nyc02\"} 66 150\ntemp{core=\"1\",host=\"nyc02\"} 56 100\n" := by
  decide +kernel

/-- prometheus/metricset_small_test.go: TestUpdateLabelOrdering -/
example : served [b!"temp{host=\"nyc02\",core=\"0\"} 55 100", b!"temp{core=\"0\",host=\"nyc02\"} 66 101"]
    = .ok b!"temp{core=\"0\",host=\"nyc02\"} 66 101\n" := by decide +kernel

/-- prometheus/metricset_small_test.go: TestUpdateFromSet -/
example : (do
      let set0 ← receiveMetrics insertionSorter idOrder [] b!"uptime{host=\"nyc01\"} 222 99\ntemp{host=\"nyc02\",core=\"0\"} 55 100"
      let set0 ← receiveMetrics insertionSorter idOrder set0 b!"temp{host=\"nyc02\",core=\"0\"} 66 111\nuptime{host=\"nyc02\"} 1234 222"
      return (← setToBytes insertionSorter idOrder set0).1 : Go Bytes)
    = .ok b!"temp{core=\"0\",host=\"nyc02\"} 66 111\nuptime{host=\"nyc01\"} 222 99\nuptime{host=\"nyc02\"} 1234 222\n" := by
  decide +kernel

/-- monitor/monitor_medium_test.go: TestMonitor, the page before and after the second message -/
example : (do
      let set ← receiveMetrics insertionSorter idOrder [] b!"foo{host=\"nyc01\",land=\"ho\"} 42 11111111"
      let (page0, set) ← setToBytes insertionSorter idOrder set
      let set ← receiveMetrics insertionSorter idOrder set b!"bar{host=\"nyc02\"} 1024 33333333\nfoo{host=\"nyc01\",land=\"ho\"} 99 22222222\n"
      let (page1, _) ← setToBytes insertionSorter idOrder set
      return [page0, page1] : Go (List Bytes))
    = .ok [b!"foo{host=\"nyc01\",land=\"ho\"} 42 11111111\n",
      b!"bar{host=\"nyc02\"} 1024 33333333\nfoo{host=\"nyc01\",land=\"ho\"} 99 22222222\n"] := by
  decide +kernel

/-- prometheus/metricset_small_test.go: TestToBytes -/
example : served [b!"uptime{host=\"nyc01\"} 1234 101", b!"temp{host=\"nyc02\",core=\"0\"} 55 100",
      b!"temp{host=\"nyc02\",core=\"1\"} 56 100", b!"uptime{host=\"nyc02\"} 4444 102"]
    = .ok b!"temp{core=\"0\",host=\"nyc02\"} 55 100\ntemp{core=\"1\",host=\"nyc02\"} 56 100\nuptime{host=\"nyc01\"} 1234 101\nuptime{host=\"nyc02\"} 4444 102\n" := by
  decide +kernel

/-- prometheus/labels_small_test.go -/
example : labelsText [] = b!"{}" ∧ labelsText [⟨b!"foo", b!"aaa"⟩] = b!"{foo=\"aaa\"}" ∧
    labelsText (insertionSorter.sort Label.name [⟨b!"foo", b!"aaa"⟩, ⟨b!"bar", b!"bbbb"⟩]) = b!"{bar=\"bbbb\",foo=\"aaa\"}" ∧
    withLabel [⟨b!"foo", b!"aaa"⟩] b!"bar" b!"bbb" = [⟨b!"foo", b!"aaa"⟩, ⟨b!"bar", b!"bbb"⟩] ∧
    withLabel (withLabel [⟨b!"foo", b!"aaa"⟩] b!"bar" b!"none") b!"che" b!"sne"
      = [⟨b!"foo", b!"aaa"⟩, ⟨b!"bar", b!"none"⟩, ⟨b!"che", b!"sne"⟩] := by decide +kernel

/-- prometheus/metric_small_test.go -/
example : vToBytes insertionSorter ⟨b!"foo", [], 42, 0⟩ = b!"foo 42" ∧
    vToBytes insertionSorter ⟨b!"foo", [], 42, 123456⟩ = b!"foo 42 123456" ∧
    vToBytes insertionSorter ⟨b!"foo", [⟨b!"host", b!"nyc01"⟩, ⟨b!"thing", b!"forgot"⟩], 42, 123456⟩
      = b!"foo{host=\"nyc01\",thing=\"forgot\"} 42 123456" := by decide +kernel

/-- stats/prometheus_small_test.go -/
example :
    snapshotToPrometheus insertionSorter idOrder [(b!"foo", 42), (b!"bar", 99), (b!"qaz", 0)] 1234567890000000000 []
      = b!"bar 99 1234567890000\nfoo 42 1234567890000\nqaz 0 1234567890000\n" ∧
    snapshotToPrometheus insertionSorter idOrder [(b!"foo", 42), (b!"bar", 99), (b!"qaz", 0)] 1234567890000000000
        (withLabel (withLabel [] b!"host" b!"nyc01") b!"level" b!"high")
      = b!"bar{host=\"nyc01\",level=\"high\"} 99 1234567890000\nfoo{host=\"nyc01\",level=\"high\"} 42 1234567890000\nqaz{host=\"nyc01\",level=\"high\"} 0 1234567890000\n" ∧
    counterToPrometheus insertionSorter b!"foo" 99 1234567890000000000 (withLabel [] b!"host" b!"nyc01")
      = b!"foo{host=\"nyc01\"} 99 1234567890000" := by decide +kernel

/-- A call without interference: the counters afterwards and the result. -/
def call (counts : List Nat) (op : Counters.Op) : Go (List Nat × Option Counters.Res) := do
  let rec go : Nat → List Nat → Counters.PC → Go (List Nat × Option Counters.Res)
    | _, c, .done r => return (c, some r)
    | 0, c, _ => return (c, none)
    | n + 1, c, p => do
      let (c, p) ← Counters.action c p
      go n c p
  go 10 counts op.start

/-- A sequence of calls: the results. -/
def calls : List Nat → List Counters.Op → Go (List Counters.Res)
  | _, [] => return []
  | c, o :: os => do
    let (c, r) ← call c o
    let rs ← calls c os
    return r.toList ++ rs

/-- stats/anonstats_test.go: TestAnonBasics -/
example : calls [0, 0] [.get 0, .get 1, .inc 0, .get 0, .inc 0, .get 0, .inc 0, .inc 0, .get 0, .get 1]
    = .ok ([0, 0, 1, 1, 2, 2, 3, 4, 4, 0].map .val) := by decide +kernel

/-- stats/anonstats_test.go: TestAnonMax -/
example : calls [0] [.get 0, .max 0 0, .get 0, .max 0 4, .get 0, .max 0 3, .get 0, .max 0 5, .get 0]
    = .ok ([0, 0, 0, 4, 4, 4, 4, 5, 5].map .val) := by decide +kernel

/-- stats/anonstats_test.go: TestAnonInvalid, TestAnonSnapshot -/
example : calls [0] [.get 1] = .panic ∧ calls [0] [.inc 1] = .panic ∧ calls [0] [.max 1 1] = .panic ∧
    calls [0, 0, 0] [.inc 0, .inc 1, .inc 1, .snapshot [0, 1, 2]] = .ok [.val 1, .val 1, .val 2, .vals [1, 2, 0]] := by
  decide +kernel

/-- stats/stats_small_test.go: TestInvalid, TestSnapshot (names) -/
example : Counters.lookup (Counters.newIndex [b!"foo"]) b!"bar" = .panic ∧ Counters.lookup (Counters.newIndex [b!"foo", b!"bar"]) b!"bar" = .ok 1 ∧
    Counters.snapshotPairs (Counters.newIndex [b!"foo", b!"bar", b!"qaz"]) idOrder [1, 2, 0]
      = [(b!"foo", 1), (b!"bar", 2), (b!"qaz", 0)] := by decide +kernel

end Spout.Conformance
