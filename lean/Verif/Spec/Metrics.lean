import Verif.Model.Prometheus

/-! # Specification: metric lines and the monitor's text

`Prom.VMetric` and `Prom.Label` are plain records of a metric's name, labels,
value and timestamp. -/

namespace Spout.Spec

open Spout.Prom (Label VMetric)

/-- `name="value"` -/
def labelText (l : Label) : Bytes := l.name ++ b!"=\"" ++ l.value ++ b!"\""

/-- The labels, separated by commas. -/
def labelList (ls : List Label) : Bytes := ((ls.map labelText).intersperse b!",").flatten

/-- The line of a metric: the name, the labels in braces if there are any, the
value, and the timestamp if it is positive. -/
def metricLine (m : VMetric) : Bytes :=
  m.name
    ++ (if m.labels = [] then [] else b!"{" ++ labelList m.labels ++ b!"}")
    ++ b!" " ++ itoa m.value
    ++ (if m.millis > 0 then b!" " ++ itoa m.millis else [])

/-- A metric name contains no space and no opening brace. -/
def NameOK (n : Bytes) : Prop := SP ∉ n ∧ LBRACE ∉ n

/-- A label name does not contain `="`, a label value contains no quote. -/
def LabelOK (l : Label) : Prop := ¬ b!"=\"" <:+: l.name ∧ DQ ∉ l.value

/-- The accepted lines: `line` stands for the metric `m`.  Either `name value`
or `name{labels}?value`, where `?` is any byte, each optionally followed by a
space and a timestamp.  The numbers are those `ToInt` accepts (C04). -/
def LineOf (line : Bytes) (m : VMetric) : Prop :=
  3 ≤ line.length ∧ NameOK m.name ∧
  ∃ sep val rest : Bytes, line = m.name ++ sep ++ val ++ rest ∧
    ((sep = b!" " ∧ m.labels = []) ∨
      ∃ c : Byte, sep = b!"{" ++ labelList m.labels ++ b!"}" ++ [c] ∧
        (labelList m.labels).head? ≠ some RBRACE ∧ ∀ l ∈ m.labels, LabelOK l) ∧
    SP ∉ val ∧ toInt val = .ok m.value ∧
    ((rest = [] ∧ m.millis = 0) ∨ ∃ t, rest = b!" " ++ t ∧ toInt t = .ok m.millis)

/-- Strictly ascending label names. -/
def Ascending (ls : List Label) : Prop := ls.Pairwise fun a b => bytesLt a.name b.name = true

/-- Same series: same name and the same labels, in any order. -/
def SameSeries (a b : VMetric) : Prop := a.name = b.name ∧ a.labels.Perm b.labels

/-- The lines of a monitoring message. -/
def msgLines (data : Bytes) : List Bytes := (splitNL data).filter (fun l => l ≠ [])

/-- Each line stands for the corresponding metric. -/
inductive LinesOf : List Bytes → List VMetric → Prop
  | nil : LinesOf [] []
  | cons {line lines v vs} : LineOf line v → LinesOf lines vs → LinesOf (line :: lines) (v :: vs)

/-- The metrics received in a history, in order: those of every message whose
lines are all valid. -/
inductive Received : List Prom.MEv → List VMetric → Prop
  | nil : Received [] []
  | scrape {ord evs R} : Received evs R → Received (.scrape ord :: evs) R
  | valid {data ord evs vs R} : LinesOf (msgLines data) vs → Received evs R →
      Received (.recv data ord :: evs) (vs ++ R)
  | invalid {data ord evs R} (line : Bytes) : line ∈ msgLines data → (¬ ∃ v, LineOf line v) → Received evs R →
      Received (.recv data ord :: evs) R

/-- `v` was received and nothing of the same series was received after it. -/
def Latest (R : List VMetric) (v : VMetric) : Prop :=
  ∃ pre post, R = pre ++ v :: post ∧ ∀ x ∈ post, ¬ SameSeries x v

/-- Every valid line received has distinct label names, and those received
before some scrape list their labels in ascending order of name. -/
def Orderly (evs : List Prom.MEv) : Prop :=
  ∀ pre data ord post, evs = pre ++ Prom.MEv.recv data ord :: post →
    ∀ line ∈ msgLines data, ∀ v, LineOf line v →
      (v.labels.map (·.name)).Nodup ∧ ((∃ o, Prom.MEv.scrape o ∈ post) → Ascending v.labels)

/-- The text that orders the series. -/
def seriesText (m : VMetric) : Bytes := m.name ++ b!"{" ++ labelList m.labels ++ b!"}"

/-- `text` shows exactly the latest metric of every series in `R`: one line per
series, in ascending order, labels sorted. -/
def Shows (text : Bytes) (R : List VMetric) : Prop :=
  ∃ rows : List VMetric,
    text = (rows.map fun m => metricLine m ++ b!"\n").flatten ∧
    rows.Pairwise (fun a b => bytesLt (seriesText a) (seriesText b) = true) ∧
    (∀ row ∈ rows, Ascending row.labels ∧
      ∃ v, Latest R v ∧ SameSeries row v ∧ row.value = v.value ∧ row.millis = v.millis) ∧
    (∀ v ∈ R, ∃ row ∈ rows, SameSeries row v)

/-- What a component may put into its metrics: non-empty names without space,
brace or newline, distinct label names without `="`, leading `}` or newline,
label values without quote or newline. -/
structure Sendable (name : Bytes) (labels : List Label) : Prop where
  nonempty : name ≠ []
  nameOK : NameOK name
  nameNL : NL ∉ name
  labelsOK : ∀ l ∈ labels, LabelOK l ∧ l.name.head? ≠ some RBRACE ∧ NL ∉ l.name ∧ NL ∉ l.value
  distinct : (labels.map (·.name)).Nodup

/-- A history in which every message was made by a component (a snapshot of its
counters, or one counter), and the metrics sent, in the order in which the
messages list them.  A metric is sent with its labels sorted and with the time
in milliseconds (0 if that is not positive). -/
inductive FromComponents (S : Sorter) : List Prom.MEv → List VMetric → Prop
  | nil : FromComponents S [] []
  | scrape {ord evs R} : FromComponents S evs R → FromComponents S (.scrape ord :: evs) R
  | snapshot {ord evs R} (ord' : MapOrder) (snap : List (Bytes × Nat)) (now : Int) (labels ls : List Label)
      (vs : List VMetric) :
      InInt64 now → (snap.map (·.1)).Nodup → (∀ c ∈ snap, Sendable c.1 labels) → ls.Perm labels → Ascending ls →
      vs.Perm (snap.map fun c => ⟨c.1, ls, wrap64 c.2, max 0 (now.tdiv 1000000)⟩) → FromComponents S evs R →
      FromComponents S (.recv (Prom.snapshotToPrometheus S ord' snap now labels) ord :: evs) (vs ++ R)
  | counter {ord evs R} (name : Bytes) (value now : Int) (labels ls : List Label) :
      InInt64 now → InInt64 value → Sendable name labels → ls.Perm labels → Ascending ls → FromComponents S evs R →
      FromComponents S (.recv (Prom.counterToPrometheus S name value now labels) ord :: evs)
        (⟨name, ls, value, max 0 (now.tdiv 1000000)⟩ :: R)

end Spout.Spec
