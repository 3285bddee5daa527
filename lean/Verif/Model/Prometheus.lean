import Verif.Model.Convert
import Verif.Model.Filter
import Verif.Model.Downsampler

/-! # Model of packages `prometheus`, `monitor` and of `stats/prometheus.go`

A parsed metric holds slices into the memory of the line it was parsed from:
the name is the front of the line and the label names and values are sub-slices.
`Metric.ToBytes` wraps the name in a `bytes.Buffer` and writes after it, so it
writes into that memory as long as it fits.  The aliasing is therefore modelled.

The capacity of a line is its length: `bytes.Split` caps each piece at its own
length, and the last piece ends where the payload ends (the NATS client
allocates the payload with capacity equal to its length). -/

namespace Spout.Prom

/-! ## Standard library functions -/

/-- `bytes.IndexByte(s, c)`; `none` is `-1`. prometheus/parse.go:74, 111. -/
def indexByte (c : Byte) : Bytes → Option Nat
  | [] => none
  | x :: xs => if x = c then some 0 else (indexByte c xs).map (· + 1)

/-- `bytes.IndexAny(s, " {")` (both characters are ASCII); `none` is `-1`. prometheus/parse.go:57. -/
def indexSpaceBrace : Bytes → Option Nat
  | [] => none
  | x :: xs => if x = SP ∨ x = LBRACE then some 0 else (indexSpaceBrace xs).map (· + 1)

/-- ``bytes.Index(s, []byte(`="`))``; `none` is `-1`. prometheus/parse.go:104. -/
def indexEqQuote : Bytes → Option Nat
  | [] => none
  | [_] => none
  | x :: y :: xs => if x = EQ ∧ y = DQ then some 0 else (indexEqQuote (y :: xs)).map (· + 1)

/-! ## labels.go -/

/-- `Label`, prometheus/labels.go:24-27. -/
structure Label where
  name : Bytes
  value : Bytes
  deriving DecidableEq, Repr

/-- The loop of `Labels.ToBytes`, prometheus/labels.go:47-52. -/
def labelsLoop : List Label → Bytes
  | [] => []
  | [l] => l.name ++ [EQ, DQ] ++ l.value ++ [DQ]
  | l :: rest => l.name ++ [EQ, DQ] ++ l.value ++ [DQ] ++ [COMMA] ++ labelsLoop rest

/-- `Labels.ToBytes` after the sort, prometheus/labels.go:45-54. -/
def labelsText (ls : List Label) : Bytes := [LBRACE] ++ labelsLoop ls ++ [RBRACE]

/-! ## metric.go -/

/-- A label of a parsed metric: name and value as `(offset, length)` in the
memory of the line. prometheus/labels.go:24-27, parse.go:108, 115. -/
structure RLabel where
  nameOff : Nat
  nameLen : Nat
  valueOff : Nat
  valueLen : Nat
  deriving DecidableEq, Repr

/-- Contents of a label, given the memory it points into. prometheus/labels.go:24-27. -/
def RLabel.get (mem : Bytes) (l : RLabel) : Label :=
  ⟨(mem.drop l.nameOff).take l.nameLen, (mem.drop l.valueOff).take l.valueLen⟩

/-- `Metric`, prometheus/metric.go:24-29, as produced by `ParseMetric`: `mem`
is the memory of the line, of which the name is the first `nameLen` bytes. -/
structure Metric where
  mem : Bytes
  nameLen : Nat
  labels : List RLabel
  value : Int
  millis : Int
  deriving DecidableEq, Repr

/-- A `bytes.Buffer` made by `bytes.NewBuffer(mem[:n])` with capacity
`len(mem)`.  `own` is the buffer's private storage once it has grown. prometheus/metric.go:37. -/
structure Buf where
  mem : Bytes
  n : Nat
  own : Option Bytes
  deriving DecidableEq, Repr

/-- `Buffer.Write` (Go standard library): in place while it fits, otherwise the
contents are copied to a new, private storage. -/
def Buf.write (b : Buf) (p : Bytes) : Buf :=
  match b.own with
  | some o => { b with own := some (o ++ p) }
  | none =>
    if b.n + p.length ≤ b.mem.length then
      { b with mem := b.mem.take b.n ++ p ++ b.mem.drop (b.n + p.length), n := b.n + p.length }
    else { b with own := some (b.mem.take b.n ++ p) }

/-- `Buffer.Bytes`. prometheus/metric.go:45. -/
def Buf.bytes (b : Buf) : Bytes :=
  match b.own with
  | some o => o
  | none => b.mem.take b.n

/-- `Labels.sort`, prometheus/labels.go:57-61: in place. -/
def Metric.sortLabels (S : Sorter) (m : Metric) : Metric :=
  { m with labels := S.sort (fun l => (l.get m.mem).name) m.labels }

/-- `Metric.ToBytes`, prometheus/metric.go:36-46: the text, and the metric
afterwards (labels sorted, memory possibly overwritten). -/
def Metric.toBytes (S : Sorter) (m : Metric) : Bytes × Metric :=
  let out : Buf := ⟨m.mem, m.nameLen, none⟩                                   -- 37
  let (out, m) :=
    if m.labels.length > 0 then                                               -- 38
      let m := m.sortLabels S                                                 -- labels.go:43
      (out.write (labelsText (m.labels.map (·.get m.mem))), m)                -- 39
    else (out, m)
  let out := out.write ([SP] ++ itoa m.value)                                 -- 41
  let out := if m.millis > 0 then out.write ([SP] ++ itoa m.millis) else out  -- 42-44
  (out.bytes, { m with mem := out.mem })

/-! ## parse.go -/

/-- The errors of `ParseMetric` and `parseLabels`. prometheus/parse.go:50-88, 105-126. -/
inductive PErr where
  | invalidMetric | noValue | invalidValue | invalidTimestamp
  | invalidLabel | missingQuote | invalidSeparator
  deriving DecidableEq, Repr

/-- The loop of `parseLabels`, prometheus/parse.go:101-128.  `s` is the whole
argument of `parseLabels`, `off` the offset of `s` in the line.  Each iteration
moves `i` forward, so `len(s) + 1` iterations are enough (the case `0` is never
reached). -/
def parseLabelsLoop (s : Bytes) (off : Nat) : (fuel i : Nat) → (out : List RLabel) →
    Go (Except PErr (List RLabel × Nat))
  | 0, _, _ => .panic
  | fuel + 1, i, out => do
    let si ← sliceFrom s i                                                    -- 104
    match indexEqQuote si with
    | none => return .error .invalidLabel                                     -- 105-107
    | some j =>
      let _ ← slice s i (i + j)                                               -- 108
      let nameOff := off + i
      let nameLen := j
      let i := i + j + 2                                                      -- 109
      let si ← sliceFrom s i                                                  -- 111
      match indexByte DQ si with
      | none => return .error .missingQuote                                   -- 112-114
      | some j =>
        let _ ← slice s i (i + j)                                             -- 115
        let label : RLabel := ⟨nameOff, nameLen, off + i, j⟩
        let i := i + j + 1                                                    -- 116
        let out := out ++ [label]                                             -- 118
        let c ← idx s i                                                       -- 120
        if c = RBRACE then return .ok (out, i + 1)                            -- 121-122
        else if c = COMMA then parseLabelsLoop s off fuel (i + 1) out         -- 123-124
        else return .error .invalidSeparator                                  -- 125-126

/-- `parseLabels`, prometheus/parse.go:94-129. -/
def parseLabels (s : Bytes) (off : Nat) : Go (Except PErr (List RLabel × Nat)) := do
  let c ← idx s 0                                                             -- 95
  if c = RBRACE then return .ok ([], 1)                                       -- 95-97
  else parseLabelsLoop s off (s.length + 1) 0 []

/-- The end of the value: the next space or the end, prometheus/parse.go:74-77. -/
def valueEnd (si : Bytes) : Nat :=
  match indexByte SP si with
  | some j => j
  | none => si.length

/-- `ParseMetric` from the value on, prometheus/parse.go:73-91; `i` is the index
of the byte before the value. -/
def parseValue (s : Bytes) (nameLen : Nat) (labels : List RLabel) (i : Nat) : Go (Except PErr Metric) := do
  let i := i + 1                                                              -- 73
  let si ← sliceFrom s i                                                      -- 74
  let j := valueEnd si                                                        -- 74-77
  let v ← slice s i (i + j)                                                   -- 78
  match toInt v with
  | .error _ => return .error .invalidValue                                   -- 79-81
  | .ok value =>
    let i := i + j                                                            -- 83
    if i < s.length then                                                      -- 84
      let t ← sliceFrom s (i + 1)                                             -- 85
      match toInt t with
      | .error _ => return .error .invalidTimestamp                           -- 86-88
      | .ok millis => return .ok ⟨s, nameLen, labels, value, millis⟩
    else return .ok ⟨s, nameLen, labels, value, 0⟩

/-- `ParseMetric`, prometheus/parse.go:49-92. -/
def parseMetric (s : Bytes) : Go (Except PErr Metric) := do
  if s.length < 3 then return .error .invalidMetric                           -- 50-52
  match indexSpaceBrace s with                                                -- 57
  | none => return .error .noValue                                            -- 58-60
  | some i =>
    let _ ← sliceTo s i                                                       -- 61
    let c ← idx s i                                                           -- 63
    if c = LBRACE then
      let rest ← sliceFrom s (i + 1)                                          -- 64-65
      match ← parseLabels rest (i + 1) with
      | .error e => return .error e                                           -- 66-68
      | .ok (labels, n) => parseValue s i labels (i + 1 + n)                  -- 69-70
    else parseValue s i [] i

/-! ## metricset.go -/

/-- `MetricSet`, prometheus/metricset.go:33-35. -/
abbrev MetricSet := List (Bytes × Metric)

/-- `metricKey`, prometheus/metricset.go:76-78; rendering the labels sorts them
in place, so the metric is returned too. -/
def metricKey (S : Sorter) (m : Metric) : Bytes × Metric :=
  let m := m.sortLabels S
  (m.mem.take m.nameLen ++ labelsText (m.labels.map (·.get m.mem)), m)

/-- `MetricSet.Update`, prometheus/metricset.go:48-50. -/
def update (S : Sorter) (set : MetricSet) (m : Metric) : MetricSet :=
  let (key, m) := metricKey S m
  mset set key m

/-- `MetricSet.UpdateFromSet`, prometheus/metricset.go:53-57, with
`MetricSet.All` (38-44); `ord` is the map iteration order. -/
def updateFromSet (S : Sorter) (ord : MapOrder) (set other : MetricSet) : MetricSet :=
  ((ord.order other).map (·.2)).foldl (update S) set

/-- The loop of `MetricSet.ToBytes`, prometheus/metricset.go:69-72.  (A missing
key would be a nil dereference.) -/
def renderKeys (S : Sorter) : MetricSet → List Bytes → Go (Bytes × MetricSet)
  | set, [] => return ([], set)
  | set, k :: ks =>
    match mget set k with
    | none => .panic
    | some m => do
      let (text, m) := m.toBytes S
      let (rest, set) ← renderKeys S (mset set k m) ks
      return (text ++ [NL] ++ rest, set)

/-- `MetricSet.ToBytes`, prometheus/metricset.go:61-74. -/
def setToBytes (S : Sorter) (ord : MapOrder) (set : MetricSet) : Go (Bytes × MetricSet) :=
  renderKeys S set (S.sort id ((ord.order set).map (·.1)))

/-- The loop of `ParseMetrics`, prometheus/parse.go:29-38. -/
def parseLines (S : Sorter) : MetricSet → List Bytes → Go (Except PErr MetricSet)
  | set, [] => return .ok set
  | set, line :: lines => do
    if line.length = 0 then parseLines S set lines                            -- 30-32
    else
      match ← parseMetric line with
      | .error e => return .error e                                           -- 34-36
      | .ok m => parseLines S (update S set m) lines                          -- 37

/-- `ParseMetrics`, prometheus/parse.go:27-40. -/
def parseMetrics (S : Sorter) (s : Bytes) : Go (Except PErr MetricSet) := parseLines S [] (splitNL s)

/-! ## monitor.go -/

/-- `receiveMetrics`, monitor/monitor.go:142-152, on the monitor's metric set.
The message is parsed without the lock; the update holds it. -/
def receiveMetrics (S : Sorter) (ord : MapOrder) (set : MetricSet) (data : Bytes) : Go MetricSet := do
  match ← parseMetrics S data with
  | .error _ => return set                                                    -- 144-147
  | .ok new => return updateFromSet S ord set new                             -- 149-151

/-- The `/metrics` handler, monitor/monitor.go:114-121; it holds the lock. -/
def scrape (S : Sorter) (ord : MapOrder) (set : MetricSet) : Go (Bytes × MetricSet) := setToBytes S ord set

/-- One thing that happens to a monitor.  Both hold the same lock while they
use the metric set, so they happen one after the other. monitor/monitor.go:114-121, 142-152. -/
inductive MEv where
  | recv (data : Bytes) (ord : MapOrder)
  | scrape (ord : MapOrder)

/-- One event. monitor/monitor.go:114-121, 142-152. -/
def monitorStep (S : Sorter) (set : MetricSet) : MEv → Go MetricSet
  | .recv data ord => receiveMetrics S ord set data
  | .scrape ord => do
    let (_, set) ← scrape S ord set
    return set

/-- A history of a monitor, from the empty set (monitor/monitor.go:37). -/
def monitorRun (S : Sorter) : MetricSet → List MEv → Go MetricSet
  | set, [] => return set
  | set, e :: es => do
    let set ← monitorStep S set e
    monitorRun S set es

/-! ## stats/prometheus.go

Here the metrics are built from strings, so nothing aliases: the name is a
fresh `[]byte`, whose spare capacity nobody else uses. -/

/-- A metric by value. prometheus/metric.go:24-29. -/
structure VMetric where
  name : Bytes
  labels : List Label
  value : Int
  millis : Int
  deriving DecidableEq, Repr

/-- `Metric.ToBytes`, prometheus/metric.go:36-46, on a metric whose slices do
not alias. -/
def vToBytes (S : Sorter) (m : VMetric) : Bytes :=
  m.name
    ++ (if m.labels.length > 0 then labelsText (S.sort Label.name m.labels) else [])
    ++ ([SP] ++ itoa m.value)
    ++ (if m.millis > 0 then [SP] ++ itoa m.millis else [])

/-- `metricKey`, prometheus/metricset.go:76-78, without aliasing. -/
def vKey (S : Sorter) (m : VMetric) : Bytes := m.name ++ labelsText (S.sort Label.name m.labels)

/-- `timeToMillis`, stats/prometheus.go:62-64; Go's division truncates. -/
def timeToMillis (nanos : Int) : Int := nanos.tdiv 1000000

/-- `SnapshotToPrometheus`, stats/prometheus.go:37-49; `snap` are the counters
by name (`uint64` values), `ord` the iteration order of the set's map.  The
label slice is shared by the metrics and sorted in place; its order is not
observable because every rendering sorts it. -/
def snapshotToPrometheus (S : Sorter) (ord : MapOrder) (snap : List (Bytes × Nat)) (now : Int) (labels : List Label) :
    Bytes :=
  let set : List (Bytes × VMetric) := snap.foldl (fun set c =>
    let m : VMetric := ⟨c.1, labels, wrap64 c.2, timeToMillis now⟩
    mset set (vKey S m) m) []
  let keys := S.sort id ((ord.order set).map (·.1))
  (keys.map fun k => match mget set k with
    | some m => vToBytes S m ++ [NL]
    | none => []).flatten

/-- `CounterToPrometheus`, stats/prometheus.go:52-60. -/
def counterToPrometheus (S : Sorter) (name : Bytes) (value : Int) (now : Int) (labels : List Label) : Bytes :=
  vToBytes S ⟨name, labels, value, timeToMillis now⟩

/-- `NewLabels`, stats/prometheus.go:26-32. -/
def newLabels (component name hostname : Bytes) : List Label :=
  [⟨b!"component", component⟩, ⟨b!"name", name⟩, ⟨b!"host", hostname⟩]

/-- `Labels.With`, prometheus/labels.go:64-69. -/
def withLabel (ls : List Label) (name value : Bytes) : List Label := ls ++ [⟨name, value⟩]

end Spout.Prom
