import Verif.Go

/-! # Model of starting and stopping a component

filter/filter.go:44-159, writer/writer.go:60-145, downsampler/downsampler.go:55-137,
listener/listener.go:56-171 and 214-363, monitor/monitor.go:33-140,
cmd/influx-spout/main.go:82-123.

`StartX` and `Stop` are straight line programs with loops of known length: a
program is the list of the operations that matter for starting and stopping, in
the order of the source.  Every goroutine is such a program too.  One step
executes the next operation of one goroutine; a schedule is any sequence of
steps, and operations that can fail may fail at any time.

Simplifications: the endless loop of a goroutine is the single operation
`awaitStop` (what the loop does is modelled elsewhere: Model/Filter,
Model/Writer, Model/Downsampler, Model/Listener; that a writer's worker gets
through `rw.Stop()` is C45); logging, the creation of stats and the goroutines
of the NATS library are left out; the probe port is positive (otherwise there
are no probes, C64). -/

namespace Spout.Lifecycle

/-- The goroutines of a component. The `go` statements: listener/listener.go:73-74, 92-93, 216, 351, filter/filter.go:85, 106, downsampler/downsampler.go:83, 103, writer/writer.go:86, 119, writer/retryworker.go:43, monitor/monitor.go:60, 128, probes/probes.go:70. -/
inductive Gid where
  /-- `worker.run` (filter), `Writer.worker`, `Downsampler.worker` -/
  | worker (i : Nat)
  /-- `startStatistician` -/
  | statistician
  /-- `listenUDP`, `listenHTTP`, `serveHTTP` -/
  | server
  /-- the goroutine inside `listenHTTP` and `serveHTTP` -/
  | http
  /-- `oldBatchSender` -/
  | oldBatch
  deriving DecidableEq, Repr

/-- What has to be closed again. listener/listener.go:124, 183, 362, filter/filter.go:147, 155, filter/worker.go:74, downsampler/downsampler.go:129, 132, writer/writer.go:141, monitor/monitor.go:88, 96, 139. -/
inductive Resource where
  /-- the component's connection to NATS -/
  | nats
  /-- the connection of a worker of the filter -/
  | workerNats (i : Nat)
  /-- the UDP socket -/
  | socket
  deriving DecidableEq, Repr

/-- Calls that may return an error and have no effect that matters here. listener/listener.go:152, 165, filter/filter.go:57, 101, downsampler/downsampler.go:90, 98, writer/writer.go:73, 106, 114, monitor/monitor.go:55. -/
inductive Check where
  /-- `RuleSetFromConfig` -/
  | rules
  /-- `net.ResolveUDPAddr` -/
  | resolve
  /-- `SetReadBuffer` -/
  | readBuffer
  deriving DecidableEq, Repr

/-- Operations. The statements of the functions cited below. Go semantics. -/
inductive Op where
  /-- `probes.Listen` -/
  | openProbes
  /-- `probes.Close()` -/
  | closeProbes
  | setReady (b : Bool)
  | setAlive (b : Bool)
  /-- `defer func() { if err != nil { x.Stop() } }()` -/
  | deferStop
  | check (w : Check)
  /-- `nats.Connect`, `net.ListenUDP` -/
  | acquire (r : Resource)
  /-- `r.Close()` -/
  | release (r : Resource)
  /-- `if r != nil { r.Close() }` -/
  | releaseIfSet (r : Resource)
  /-- `Subscribe`, `QueueSubscribe` for the `i`-th configured subject -/
  | subscribe (i : Nat)
  /-- `SetPendingLimits` for that subscription -/
  | limits (i : Nat)
  /-- `nc.Flush()` -/
  | flush
  /-- `sub.Unsubscribe()`, harmless if the subscription is nil -/
  | unsubscribe (i : Nat)
  /-- the loop over `ds.subscriptions`, downsampler/downsampler.go:128-130: the
  subscriptions whose limits have been set -/
  | unsubscribeAll
  /-- `wg.Add(n)` -/
  | add (n : Int)
  /-- `wg.Done()` -/
  | done
  /-- `wg.Wait()` -/
  | wait
  /-- `go …` -/
  | spawn (g : Gid)
  /-- `close(stop)` -/
  | closeStop
  /-- a loop that ends when `stop` is closed, or `<-stop` -/
  | awaitStop
  /-- `server.ListenAndServe()` until the port is bound -/
  | listen
  /-- `server.ListenAndServe()` from then on -/
  | serve
  /-- `server.Close()` -/
  | closeServer
  deriving DecidableEq, Repr

/-- What the goroutines share. listener/listener.go:103-114, filter/filter.go:132-139, downsampler/downsampler.go:43-52, writer/writer.go:49-57, monitor/monitor.go:70-80. -/
structure Shared where
  /-- the probes are served -/
  probes : Bool
  ready : Bool
  alive : Bool
  /-- an error returned by `StartX` would make it call `Stop` -/
  deferred : Bool
  /-- resources whose variable is not nil -/
  made : List Resource
  /-- resources that are open -/
  live : List Resource
  /-- subscriptions made and not given up -/
  subs : List Nat
  /-- subscriptions with pending limits -/
  limited : List Nat
  /-- the subscriptions were flushed to the server -/
  flushed : Bool
  wg : Int
  /-- `stop` is closed -/
  stopped : Bool
  /-- the HTTP port of the component is bound -/
  listening : Bool
  /-- `server.Close()` was called -/
  serverClosed : Bool
  deriving DecidableEq, Repr

/-- Before `StartX`. Go semantics of the functions cited below. -/
def shared0 : Shared := ⟨false, false, true, false, [], [], [], [], false, 0, false, false, false⟩

/-- The effect of an operation that succeeds. Go semantics of the functions cited below. -/
def eff (sh : Shared) : Op → Shared
  | .openProbes => { sh with probes := true, alive := true, ready := false }
  | .closeProbes => { sh with probes := false }
  | .setReady b => { sh with ready := b }
  | .setAlive b => { sh with alive := b }
  | .deferStop => { sh with deferred := true }
  | .check _ => sh
  | .acquire r => { sh with made := r :: sh.made, live := r :: sh.live }
  | .release r => { sh with live := sh.live.filter (fun x => x ≠ r) }
  | .releaseIfSet r => { sh with live := sh.live.filter (fun x => x ≠ r) }
  | .subscribe i => { sh with subs := i :: sh.subs }
  | .limits i => { sh with limited := i :: sh.limited }
  | .flush => { sh with flushed := true }
  | .unsubscribe i => { sh with subs := sh.subs.filter (fun x => x ≠ i) }
  | .unsubscribeAll => { sh with subs := sh.subs.filter (fun x => x ∉ sh.limited) }
  | .add n => { sh with wg := sh.wg + n }
  | .done => { sh with wg := sh.wg - 1 }
  | .wait => sh
  | .spawn _ => sh
  | .closeStop => { sh with stopped := true }
  | .awaitStop => sh
  | .listen => if sh.serverClosed then sh else { sh with listening := true }
  | .serve => sh
  | .closeServer => { sh with serverClosed := true, listening := false }

/-- Operations that may return an error. Go semantics of the functions cited below. -/
def fallible : Op → Bool
  | .check _ => true
  | .acquire _ => true
  | .subscribe _ => true
  | .limits _ => true
  | .flush => true
  | _ => false

/-- What happens to an operation. Go semantics of the functions cited below. -/
inductive Outcome where
  | ok
  /-- it returns an error -/
  | fail
  /-- it has to wait -/
  | blocked
  | panic
  /-- `log.Fatal` -/
  | exit
  deriving DecidableEq, Repr

/-- The outcome of an operation; `good` tells whether what may fail succeeds. Go semantics of the functions cited below. -/
def outcome (sh : Shared) (good : Bool) (o : Op) : Outcome :=
  if fallible o then (if good then .ok else .fail) else
  match o with
  | .release r => if r ∈ sh.made then .ok else .panic
  | .add n => if sh.wg + n < 0 then .panic else .ok
  | .done => if sh.wg - 1 < 0 then .panic else .ok
  | .wait => if sh.wg = 0 then .ok else .blocked
  | .closeStop => if sh.stopped then .panic else .ok
  | .awaitStop => if sh.stopped then .ok else .blocked
  | .listen => if sh.serverClosed then .ok else if good then .ok else .exit
  | .serve => if sh.serverClosed then .ok else .blocked
  | _ => .ok

/-- A component: `StartX`, `Stop` and the goroutines. Go semantics of the functions cited below. -/
structure Comp where
  start : List Op
  stop : List Op
  body : Gid → List Op

/-- How far `StartX` and `Stop` are. Go semantics of the functions cited below. -/
inductive Phase where
  | starting
  /-- `StartX` has returned without error -/
  | running
  /-- `Stop` has been called -/
  | stopping
  /-- `Stop` has returned -/
  | stopped
  /-- `StartX` has hit an error and runs its deferred call -/
  | failing
  /-- `StartX` has returned an error -/
  | failed
  deriving DecidableEq, Repr

/-- A state: the shared state, the rest of `StartX` or `Stop`, and the
goroutines with the rest of their programs; (ghost) the operations that the
caller's goroutine has executed. Go semantics of the functions cited below. -/
structure St where
  sh : Shared
  phase : Phase
  main : List Op
  threads : List (Gid × List Op)
  did : List Op
  deriving DecidableEq, Repr

/-- `StartX` is called. Go semantics of the functions cited below. -/
def init (c : Comp) : St := ⟨shared0, .starting, c.start, [], []⟩

/-- When `main` is finished, `StartX` or `Stop` returns. Go semantics of the functions cited below. -/
def finish (s : St) : St :=
  if s.main = [] then
    match s.phase with
    | .starting => { s with phase := .running }
    | .stopping => { s with phase := .stopped }
    | .failing => { s with phase := .failed }
    | _ => s
  else s

/-- The goroutine that an operation starts. Go semantics of the functions cited below. -/
def born (c : Comp) : Op → List (Gid × List Op)
  | .spawn g => [(g, c.body g)]
  | _ => []

/-- One step of the schedule. Go semantics of the functions cited below. -/
inductive Label where
  /-- the user calls `Stop` (once, as its comment asks) -/
  | callStop
  /-- the goroutine that called `StartX` or `Stop` -/
  | main (good : Bool)
  /-- the `i`-th goroutine -/
  | go (i : Nat) (good : Bool)
  deriving DecidableEq, Repr

/-- What a step leads to. Go semantics of the functions cited below. -/
inductive Result where
  | ok (s : St)
  | blocked
  | panic
  | exit
  deriving DecidableEq, Repr

/-- One step. Go semantics of the functions cited below. -/
def step (c : Comp) (s : St) : Label → Result
  | .callStop =>
    if s.phase = .running then .ok { s with phase := .stopping, main := c.stop } else .blocked
  | .main good =>
    match s.main with
    | [] => .blocked
    | o :: rest =>
      match outcome s.sh good o with
      | .ok => .ok (finish { s with sh := eff s.sh o, main := rest, threads := s.threads ++ born c o,
                                    did := s.did ++ [o] })
      | .fail => .ok (finish { s with phase := .failing, main := if s.sh.deferred then c.stop else [] })
      | .blocked => .blocked
      | .panic => .panic
      | .exit => .exit
  | .go i good =>
    match s.threads[i]? with
    | none => .blocked
    | some (_, []) => .blocked
    | some (g, o :: rest) =>
      match outcome s.sh good o with
      | .ok => .ok { s with sh := eff s.sh o, threads := s.threads.set i (g, rest) ++ born c o }
      | .fail => .blocked
      | .blocked => .blocked
      | .panic => .panic
      | .exit => .exit

/-- The reachable states. Go semantics of the functions cited below. -/
inductive Reach (c : Comp) : St → Prop where
  | init : Reach c (init c)
  | step {s s' : St} (l : Label) : Reach c s → step c s l = .ok s' → Reach c s'

/-- A schedule. Go semantics of the functions cited below. -/
def run (c : Comp) (s : St) : List Label → Result
  | [] => .ok s
  | l :: ls => match step c s l with
    | .ok s' => run c s' ls
    | r => r

/-! ## The components -/

/-- `StartFilter`, filter/filter.go:44-113, `Stop`, 142-159, `worker.run`,
filter/worker.go:72-86, `startStatistician`, filter.go:164-192. -/
def filter (workers : Int) : Comp where
  start :=
    [.openProbes, .deferStop, .check .rules, .acquire .nats]
    ++ (List.range workers.toNat).flatMap (fun i =>
        [.acquire (.workerNats i), .add 1, .spawn (.worker i)])
    ++ [.subscribe 0, .limits 0, .add 1, .spawn .statistician, .setReady true]
  stop := [.setReady false, .setAlive false, .unsubscribe 0, .closeStop, .wait, .releaseIfSet .nats, .closeProbes]
  body
    | .worker i => [.awaitStop, .release (.workerNats i), .done]
    | .statistician => [.awaitStop, .done]
    | _ => []

/-- `StartWriter`, writer/writer.go:60-129, `Stop`, 134-145, `worker`, 147-203,
`startStatistician`. -/
def writer (workers : Int) (subjects : Nat) : Comp where
  start :=
    [.openProbes, .deferStop, .check .rules, .acquire .nats, .add workers]
    ++ (List.range workers.toNat).flatMap (fun i => [.spawn (.worker i)])
    ++ (List.range subjects).flatMap (fun i => [.subscribe i, .limits i])
    ++ [.flush, .add 1, .spawn .statistician, .setReady true]
  stop := [.setReady false, .setAlive false, .closeStop, .wait, .releaseIfSet .nats, .closeProbes]
  body
    | .worker _ => [.awaitStop, .done]
    | .statistician => [.awaitStop, .done]
    | _ => []

/-- `StartDownsampler`, downsampler/downsampler.go:55-113, `Stop`, 118-137,
`worker`, 139-, `startStatistician`. -/
def downsampler (subjects : Nat) : Comp where
  start :=
    [.openProbes, .deferStop, .acquire .nats]
    ++ (List.range subjects).flatMap (fun i =>
        [.add 1, .spawn (.worker i), .subscribe i, .limits i])
    ++ [.flush, .add 1, .spawn .statistician, .setReady true]
  stop := [.setReady false, .setAlive false, .closeStop, .wait, .unsubscribeAll, .releaseIfSet .nats, .closeProbes]
  body
    | .worker _ => [.awaitStop, .done]
    | .statistician => [.awaitStop, .done]
    | _ => []

/-- `StartListener`, listener/listener.go:56-79, with `newListener`, 128-150,
and `setupUDP`, 152-171; `Stop`, 118-126; `listenUDP`, 181-212;
`startStatistician`, 417-429. -/
def udpListener : Comp where
  start := [.openProbes, .acquire .nats, .deferStop, .check .resolve, .acquire .socket, .check .readBuffer,
    .add 2, .spawn .statistician, .spawn .server]
  stop := [.setReady false, .setAlive false, .closeStop, .wait, .release .nats, .closeProbes]
  body
    | .statistician => [.awaitStop, .done]
    | .server => [.setReady true, .awaitStop, .release .socket, .done]
    | _ => []

/-- `StartHTTPListener`, listener/listener.go:84-98, with `newListener`,
128-150, and `setupHTTP`, 214-224; `Stop`, 118-126; `listenHTTP`, 348-363;
`oldBatchSender`, 229-247; `startStatistician`, 417-429. -/
def httpListener : Comp where
  start := [.openProbes, .acquire .nats, .add 1, .spawn .oldBatch, .add 2, .spawn .statistician, .spawn .server]
  stop := [.setReady false, .setAlive false, .closeStop, .wait, .release .nats, .closeProbes]
  body
    | .statistician => [.awaitStop, .done]
    | .oldBatch => [.awaitStop, .done]
    | .server => [.spawn .http, .awaitStop, .closeServer, .done]
    | .http => [.setReady true, .listen, .serve]
    | _ => []

/-- `Start`, monitor/monitor.go:33-65; `Stop`, 83-100; `serveHTTP`, 110-140. -/
def monitor : Comp where
  start := [.openProbes, .deferStop, .acquire .nats, .subscribe 0, .flush, .add 1, .spawn .server]
  stop := [.setReady false, .setAlive false, .unsubscribe 0, .closeStop, .wait, .releaseIfSet .nats, .closeProbes]
  body
    | .server => [.spawn .http, .awaitStop, .closeServer, .done]
    | .http => [.setReady true, .listen, .serve]
    | _ => []

/-- The modes and what they need of the configuration. config/config.go:38-71. -/
structure Conf where
  mode : Bytes
  workers : Int
  subjects : Nat
  deriving DecidableEq, Repr

/-- The component that `runComponent`, cmd/influx-spout/main.go:82-123, starts
for a configuration that was read and accepted; `none` is the error "unknown
mode of operation".  `procs` is `GOMAXPROCS`. -/
def component (procs : Nat) (conf : Conf) : Option Comp :=
  if conf.mode = b!"listener" then some udpListener
  else if conf.mode = b!"listener_http" then some httpListener
  else if conf.mode = b!"filter" then some (filter conf.workers)
  else if conf.mode = b!"downsampler" then some (downsampler conf.subjects)
  else if conf.mode = b!"writer" then
    some (writer (if conf.workers = 0 then (procs : Int) * 2 else conf.workers) conf.subjects)
  else if conf.mode = b!"monitor" then some monitor
  else none

end Spout.Lifecycle
