import Verif.Model.Prometheus

/-! # Model of the statisticians

Each component regularly publishes its counters on the monitoring subject.
These functions give the messages of one round, in the order in which they are
published. -/

namespace Spout.Prom

/-- One round of the listener's statistician, listener/listener.go:419-422. -/
def listenerStats (S : Sorter) (ord : MapOrder) (name hostname : Bytes) (snap : List (Bytes × Nat)) (now : Int) : List Bytes :=
  [snapshotToPrometheus S ord snap now (newLabels b!"listener" name hostname)]

/-- One round of the filter's statistician, filter/filter.go:167-187; the
`uint64` rule counters become `int` (176). -/
def filterStats (S : Sorter) (ord : MapOrder) (name hostname : Bytes) (snap : List (Bytes × Nat)) (subjects : List Bytes)
    (ruleCounts : List Nat) (now : Int) : List Bytes :=
  let labels := newLabels b!"filter" name hostname
  snapshotToPrometheus S ord snap now labels ::
    (subjects.zip ruleCounts).map fun e =>
      counterToPrometheus S b!"triggered" (wrap64 e.2) now (withLabel labels b!"rule" e.1)

/-- One round of the downsampler's statistician, downsampler/downsampler.go:188-206. -/
def downsamplerStats (S : Sorter) (ord : MapOrder) (name hostname : Bytes) (snap : List (Bytes × Nat)) (subjects : List Bytes)
    (natsDrops : List Nat) (now : Int) : List Bytes :=
  let labels := newLabels b!"downsampler" name hostname
  snapshotToPrometheus S ord snap now labels ::
    (subjects.zip natsDrops).map fun e =>
      counterToPrometheus S b!"nats_dropped" (wrap64 e.2) now (withLabel labels b!"subject" e.1)

/-- The labels of a writer, writer/writer.go:250-253. -/
def writerLabels (name hostname address : Bytes) (port : Int) (dbName : Bytes) : List Label :=
  withLabel (withLabel (withLabel (newLabels b!"writer" name hostname) b!"influxdb_address" address)
    b!"influxdb_port" (itoa port)) b!"influxdb_dbname" dbName

/-- One round of the writer's statistician, writer/writer.go:256-275; `drops`
are the subscriptions with their drop counts, `none` where reading it failed. -/
def writerStats (S : Sorter) (ord : MapOrder) (labels : List Label) (snap : List (Bytes × Nat))
    (drops : List (Bytes × Option Int)) (now : Int) : List Bytes :=
  snapshotToPrometheus S ord snap now labels ::
    drops.filterMap fun e => match e.2 with
      | some dropped => some (counterToPrometheus S b!"nats_dropped" dropped now (withLabel labels b!"subject" e.1))
      | none => none

end Spout.Prom
