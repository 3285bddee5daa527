import Verif.Model.Config
import Verif.Model.Deployment

/-! # From configurations to a deployment

What each component takes from its configuration when it starts: the glue between `Model/Config` (the files) and
`Model/Deployment` (the running processes). -/

namespace Spout.Deploy
open Spout Spout.Listener Spout.Pool

/-- The settings a listener works with: the capacity of its batch (listener/listener.go:139) and its limits (listener/listener.go:233, 238, 371-386). -/
def listenerConf (c : Conf.Config) : LConf := ⟨c.batchMaxCount, c.batchMaxAge, c.batchMaxSize⟩

/-- `StartListener` and `StartHTTPListener`, listener/listener.go:57-98, as called at cmd/influx-spout/main.go:99-102; `none` in other modes. -/
def startListener (t : Int) (c : Conf.Config) : Option LComp :=
  if c.mode = b!"listener" then some (.udp (Listener.new (listenerConf c) t) [])
  else if c.mode = b!"listener_http" then some (.http (Listener.new (listenerConf c) t) [] [] [])
  else none

/-- The settings a filter works with. filter/filter.go:57, 71-79, 92. -/
structure FConf where
  subject : Bytes
  delta : Int
  rules : List Rule
  junk : Bytes

/-- What `StartFilter` takes from its configuration: the rules (filter/filter.go:57), the window and the junk subject (filter/filter.go:71-79), the
subject it subscribes to (filter/filter.go:92); `none` is an error, and a panic is that of `regexp.MustCompile` or of `NATSSubject[0]`. -/
def filterConf (compile : Bytes → Option (Bytes → Bool)) (c : Conf.Config) : Go (Option FConf) := do
  match ← Conf.ruleSetFromConfig compile c.rule with
  | none => return none
  | some rules =>
    let subject ← Conf.at' c.natsSubject 0
    return some ⟨subject, c.maxTimeDelta, rules, c.natsSubjectJunkyard⟩

/-- The deployment around a filter (filter/filter.go:56-92).  `S` and `fo` are the parameters of the model that stand for `sort` and the arithmetic of floats. -/
def FConf.setup (S : Sorter) (fo : FloatOps) (f : FConf) : Setup := ⟨S, fo, f.subject, f.delta, f.rules, f.junk⟩

/-- The workers of `StartFilter`, filter/filter.go:70-86: none if `workers` is negative. -/
def filterWorkers (d : Setup) (c : Conf.Config) : List FComp := List.replicate c.workers.toNat (FComp.new d)

/-- What `StartDownsampler` makes of its configuration, downsampler/downsampler.go:80-95, 142-143: a subscription and a worker for each subject. -/
def startDownsampler (fo : FloatOps) (now : Int) (c : Conf.Config) : List (DComp fo) :=
  c.natsSubject.map fun subject => ⟨subject, subject ++ c.downsampleSuffix, c.downsamplePeriod, now,
    ⟨[⟨subject, [], []⟩], [⟨Pool.start 1 1, [⟨DWorker.new fo c.downsamplePeriod now, []⟩]⟩], []⟩⟩

/-- The settings a writer works with: its rules (writer/writer.go:73), its limits (writer/writer.go:190, 239-243) and those of the
retries (writer/retryworker.go:29-42). -/
def writerConf (compile : Bytes → Option (Bytes → Bool)) (c : Conf.Config) : Go (Option WConf) := do
  match ← Conf.ruleSetFromConfig compile c.rule with
  | none => return none
  | some rules => return some ⟨c.batchMaxCount, c.batchMaxSize, c.batchMaxAge, rules, c.writerRetryBatches, c.writerRetryInterval, c.writerRetryTimeout⟩

/-- The number of workers of a writer: `2 * GOMAXPROCS` for 0, cmd/influx-spout/main.go:107-113. -/
def writerWorkers (procs : Nat) (c : Conf.Config) : Nat := if c.workers = 0 then 2 * procs else c.workers.toNat

/-- `StartWriter`, writer/writer.go:60-131, as called at cmd/influx-spout/main.go:107-113: a subscription for each subject, and the workers; `none` if it
fails or panics (`WaitGroup.Add` with a negative number, writer/writer.go:84).  The writer is the first of its queue group, if it is in one. -/
def startWriter (compile : Bytes → Option (Bytes → Bool)) (procs pages : Nat) (now : Int) (c : Conf.Config) : Option WComp :=
  if c.workers < 0 then none
  else match writerConf compile c with
  | .ok (some wc) => some ⟨c.natsSubject, wc, ⟨c.natsSubject.map fun subject => ⟨subject, [], []⟩,
      [⟨Pool.start c.natsSubject.length (writerWorkers procs c), List.replicate (writerWorkers procs c) (WSys.start wc pages now)⟩], []⟩⟩
  | _ => none

/-- The configurations of the processes of a deployment: those of the listeners, the one that all filters share, those of the downsamplers and writers. README.md:34-75. -/
structure Confs where
  listeners : List Conf.Config
  filter : Conf.Config
  downsamplers : List Conf.Config
  writers : List Conf.Config

/-- All processes start, with `n` filters: cmd/influx-spout/main.go:98-117 for every process. -/
def startAll (compile : Bytes → Option (Bytes → Bool)) (procs pages n : Nat) (now : Int) (d : Setup) (cs : Confs) : State d where
  listeners := cs.listeners.filterMap (startListener now)
  crashed := []
  filters := ⟨[⟨d.lsub, [], []⟩], List.replicate n ⟨Pool.start 1 (filterWorkers d cs.filter).length, filterWorkers d cs.filter⟩, []⟩
  downs := cs.downsamplers.flatMap (startDownsampler d.fo now)
  writers := cs.writers.filterMap (startWriter compile procs pages now)

end Spout.Deploy
