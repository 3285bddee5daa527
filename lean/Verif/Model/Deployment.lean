import Verif.Model.Downsampler
import Verif.Model.Filter
import Verif.Model.Listener
import Verif.Model.Pool
import Verif.Model.Writer
import Verif.Spec.Writer

/-! # Model of a deployment

Any number of UDP and HTTP listeners, of filters, of downsamplers and of writers, with any number of workers,
connected by NATS, as in the picture of README.md:34-75.  Each
component is the model of its own file; this one adds NATS and the steps of the whole.  Processes may start and crash at any time (`Change`).

NATS itself is not part of the repository.  What is assumed of it: a message published successfully is, for
every subscription to its subject that is in no queue group, and for every queue group, passed at most once to the callback of (one of) them,
or dropped; in any order, at any later time. -/

universe u

namespace Spout.Deploy
open Spout Spout.Listener Spout.Pool Spout.Spec

/-- A subscription as NATS sees it. NATS, which is not in /repo; the subscriptions are made in filter/filter.go:92, writer/writer.go:94, 98, downsampler/downsampler.go:84. -/
structure Sub where
  subject : Bytes
  /-- messages published on the subject that have not been passed on yet -/
  pending : List Bytes
  /-- messages that NATS has dropped, or that were published before the subscription was made (ghost) -/
  lost : List Bytes
  deriving DecidableEq, Repr

/-- Messages (with their subjects) are published: those on the subject are pending. Subjects are compared literally: NATS wildcards (`*`, `>`) in configured subjects are not modelled. NATS, which is not in /repo; listener/listener.go:405, filter/worker.go:154, downsampler/downsampler.go:172. -/
def Sub.add (s : Sub) (ms : List (Bytes × Bytes)) : Sub :=
  { s with pending := s.pending ++ (ms.filter fun m => decide (m.1 = s.subject)).map (·.2) }

/-- A process: the queue in front of its workers, and the workers. filter/filter.go:70-86, writer/writer.go:83-87, downsampler/downsampler.go:81-83. -/
structure Member (W : Type u) where
  queue : Pool
  workers : List W

/-- Processes that subscribe to the same subjects in the same queue group: all filters (filter/filter.go:92), the writers with the same
`queue_group` (writer/writer.go:98).  NATS passes each message to one of them.  A process that subscribes outside
any group (writer/writer.go:94, downsampler/downsampler.go:84) is like a group of one. -/
structure Group (W : Type u) where
  subs : List Sub
  members : List (Member W)
  /-- the processes that have crashed or ended, as they were then (ghost) -/
  dead : List (Member W)

/-- All processes there are and were. A ghost: nothing in /repo. -/
def Group.all {W : Type u} (c : Group W) : List (Member W) := c.members ++ c.dead

/-- All their workers. A ghost: nothing in /repo. -/
def Group.workers {W : Type u} (c : Group W) : List W := c.all.flatMap (·.workers)

/-- A process starts and subscribes in the queue group: filter/filter.go:69-95, writer/writer.go:84-113. -/
def Group.join {W : Type u} (c : Group W) (ws : List W) : Group W :=
  { c with members := c.members ++ [⟨Pool.start c.subs.length ws.length, ws⟩] }

/-- A process crashes or ends: it makes no more steps, and what is in its memory is lost. The end of a process at any point; nothing in /repo. -/
inductive Group.Crash {W : Type u} : Group W → Group W → Prop
  | mk (c : Group W) (pre post : List (Member W)) (x : Member W) (h : c.members = pre ++ x :: post) :
      Crash c { c with members := pre ++ post, dead := x :: c.dead }

/-- Messages are published. NATS, which is not in /repo, see `Sub.add`. -/
def Group.add {W : Type u} (c : Group W) (ms : List (Bytes × Bytes)) : Group W :=
  { c with subs := c.subs.map fun s => s.add ms }

/-- Processes that have just started: filter/filter.go:69-95, writer/writer.go:84-113, downsampler/downsampler.go:80-95. -/
structure Group.Started {W : Type u} (subjects : List Bytes) (c : Group W) : Prop where
  subs : c.subs = subjects.map fun s => ⟨s, [], []⟩
  queues : ∀ x ∈ c.members, x.queue = Pool.start subjects.length x.workers.length
  dead : c.dead = []

/-- What happens in front of the workers. NATS, which is not in /repo; the callbacks are filter/filter.go:92-97, writer/writer.go:94-100, downsampler/downsampler.go:84-86, the queues `Model/Pool.lean`. -/
inductive Group.Step {W : Type u} : Group W → Group W → Prop
  /-- NATS calls the callback of a subscription of a member with a message -/
  | deliver (c : Group W) (g i : Nat) (x : Member W) (s : Sub) (pre post : List Bytes) (m : Bytes) (as ms : List Bytes)
      (hx : c.members[g]? = some x) (hs : c.subs[i]? = some s) (hp : s.pending = pre ++ m :: post)
      (ha : x.queue.arrived[i]? = some as) (ht : x.queue.todo[i]? = some ms) :
      Step c { c with subs := c.subs.set i { s with pending := pre ++ post }, members := c.members.set g { x with queue :=
        { x.queue with arrived := x.queue.arrived.set i (as ++ [m]), todo := x.queue.todo.set i (ms ++ [m]) } } }
  /-- NATS drops a message -/
  | drop (c : Group W) (i : Nat) (s : Sub) (pre post : List Bytes) (m : Bytes) (hs : c.subs[i]? = some s)
      (hp : s.pending = pre ++ m :: post) :
      Step c { c with subs := c.subs.set i { s with pending := pre ++ post, lost := s.lost ++ [m] } }
  /-- a message enters a queue, Stop is called, a worker ends: the steps of a queue that neither are arrivals nor
  give a message to a worker -/
  | queue (c : Group W) (g : Nat) (x : Member W) (q : Pool) (hx : c.members[g]? = some x) (h : Pool.Step x.queue q)
      (ha : q.arrived = x.queue.arrived) (hg : q.got = x.queue.got) :
      Step c { c with members := c.members.set g { x with queue := q } }

/-- A worker `a` receives `m` from its queue and becomes `b`. filter/worker.go:80, writer/writer.go:169, downsampler/downsampler.go:146. -/
inductive Group.Take {W : Type u} (c : Group W) (m : Bytes) (a b : W) : Group W → Prop
  | mk (g w : Nat) (x : Member W) (ms : List Bytes) (l : List Bytes) (hx : c.members[g]? = some x) (ha : x.workers[w]? = some a)
      (hl : x.queue.live[w]? = some true) (hj : x.queue.jobs = m :: ms) (hg : x.queue.got[w]? = some l) :
      Take c m a b { c with members := (c.members.set g
        ⟨{ x.queue with jobs := ms, got := x.queue.got.set w (l ++ [m]) }, x.workers.set w b⟩) }

/-- A worker `a` becomes `b` without a message. filter/worker.go:81, writer/writer.go:172-210, downsampler/downsampler.go:159. -/
inductive Group.Work {W : Type u} (c : Group W) (a b : W) : Group W → Prop
  | mk (g w : Nat) (x : Member W) (hx : c.members[g]? = some x) (ha : x.workers[w]? = some a) :
      Work c a b { c with members := c.members.set g { x with workers := x.workers.set w b } }

/-- A request to an HTTP listener: the steps made and those to come. listener/listener.go:249-265. -/
structure HReq where
  req : HTTPReq
  done : List HTTPEvent
  todo : List HTTPEvent

/-- A listener: UDP with the iterations of its loop so far, or HTTP with the requests so far, the steps of
`oldBatchSender` and all steps in their order (ghosts). listener/listener.go:56-114. -/
inductive LComp where
  | udp (l : Listener) (got : List UDPEvent)
  | http (l : Listener) (reqs : List HReq) (wakeups order : List HTTPEvent)

/-- The state of a listener: listener/listener.go:103-114. -/
def LComp.l : LComp → Listener
  | .udp l _ => l
  | .http l _ _ _ => l

/-- A worker of the filter (filter/worker.go:28-86): the message it is working on, those it has processed and what it published (ghosts).
The counters, which all workers share, are kept for each worker here: nothing that is published depends on them. -/
structure FComp where
  w : FWorker
  st : FStats
  working : Option Bytes
  past : List FMsg
  pubss : List (List Pub)

/-- A worker of a downsampler (downsampler/downsampler.go:139-180) and the iterations it has made (ghost). -/
structure DState (fo : FloatOps) where
  w : DWorker fo
  evs : List DEvent

/-- One subscription of a downsampler with its worker (downsampler/downsampler.go:80-95). -/
structure DComp (fo : FloatOps) where
  subject : Bytes
  /-- the output subject: `subject + suffix`, downsampler/downsampler.go:142 -/
  out : Bytes
  period : Int
  now0 : Int
  inp : Group (DState fo)

/-- The writers of a queue group, or a single writer, with their workers (writer/writer.go:60-131).  Writers of a group are taken to have the
same settings. -/
structure WComp where
  subjects : List Bytes
  conf : WConf
  inp : Group WSys

/-- What the components are configured with. config/config.go:38-71, for each component. -/
structure Setup where
  S : Sorter
  fo : FloatOps
  /-- the listeners' subject, to which the filter subscribes -/
  lsub : Bytes
  delta : Int
  rules : List Rule
  junk : Bytes

/-- A state of the deployment. README.md:34-75. -/
structure State (d : Setup) where
  listeners : List LComp
  /-- the listeners that have crashed or ended, as they were then (ghost) -/
  crashed : List LComp
  filters : Group FComp
  downs : List (DComp d.fo)
  writers : List WComp

variable {d : Setup}

/-- A listener that has just started: listener/listener.go:52-152. -/
def LComp.New (x : LComp) : Prop := ∃ (c : LConf) (t0 : Int), x = .udp (Listener.new c t0) [] ∨ x = .http (Listener.new c t0) [] [] []

/-- A worker of a filter that has just started: filter/worker.go:39-75. -/
def FComp.new (d : Setup) : FComp := ⟨FWorker.new d.delta d.rules d.junk, FStats.init d.rules.length, none, [], []⟩

/-- Every component has just started. cmd/influx-spout/main.go:98-115, for every process. -/
structure Start (d : Setup) (s : State d) : Prop where
  listeners : ∀ x ∈ s.listeners, x.New
  crashed : s.crashed = []
  filters : s.filters.Started [d.lsub] ∧ ∀ x ∈ s.filters.members, ∀ f ∈ x.workers, f = FComp.new d
  downs : ∀ x ∈ s.downs, x.inp.Started [x.subject] ∧ ∃ q, x.inp.members = [⟨q, [⟨DWorker.new d.fo x.period x.now0, []⟩]⟩]
  writers : ∀ x ∈ s.writers, x.inp.Started x.subjects ∧ ∀ y ∈ x.inp.members, ∀ k ∈ y.workers,
    ∃ (pages : Nat) (now : Int), k = WSys.start x.conf pages now

/-- Messages are published. NATS, which is not in /repo, see `Sub.add`. -/
def State.publish (s : State d) (ms : List (Bytes × Bytes)) : State d :=
  { s with
    filters := s.filters.add ms
    downs := s.downs.map fun x => { x with inp := x.inp.add ms }
    writers := s.writers.map fun x => { x with inp := x.inp.add ms } }

/-- The publishes of a listener or downsampler that succeeded, with their subject. listener/listener.go:405, downsampler/downsampler.go:172. -/
def outOn (subject : Bytes) (pubs : List LPub) : List (Bytes × Bytes) :=
  (pubs.filter fun p => !p.failed).map fun p => (subject, p.data)

/-- The same for a filter. filter/worker.go:154. -/
def outF (pubs : List Pub) : List (Bytes × Bytes) := (pubs.filter fun p => !p.failed).map fun p => (p.subject, p.data)

/-- The messages on a subject. NATS, which is not in /repo. -/
def onSubj (subj : Bytes) (ms : List (Bytes × Bytes)) : List Bytes := (ms.filter fun m => decide (m.1 = subj)).map (·.2)

/-- All listeners there are and were. A ghost: nothing in /repo. -/
def State.sources (s : State d) : List LComp := s.listeners ++ s.crashed

/-- All successful publishes so far (ghost). Nothing in /repo. -/
def State.out (s : State d) : List (Bytes × Bytes) :=
  (s.sources.flatMap fun x => outOn d.lsub x.l.pubs) ++ (s.filters.workers.flatMap fun f => outF f.pubss.flatten) ++
    s.downs.flatMap fun x => x.inp.workers.flatMap fun k => outOn x.out k.w.pubs

/-- A step of the deployment.  A component publishes the messages of a batch in one step; as they may be
delivered at any later time, nothing else could be seen if there were a step for each. Listeners: listener/listener.go:181-265; filters: filter/worker.go:72-112; downsamplers: downsampler/downsampler.go:139-180; writers: writer/writer.go:147-212, writer/retryworker.go:88-121. -/
inductive Step (d : Setup) : State d → State d → Prop
  /-- an iteration of a UDP listener (datagrams have at most 65507 bytes) -/
  | udp (s : State d) (i : Nat) (l l' : Listener) (got : List UDPEvent) (e : UDPEvent) (h : s.listeners[i]? = some (.udp l got))
      (hlen : e.data.length ≤ 65507) (hr : l.udpStep e = .ok l') :
      Step d s (({ s with listeners := s.listeners.set i (.udp l' (got ++ [e])) } : State d).publish
        (outOn d.lsub (l'.pubs.drop l.pubs.length)))
  /-- a request begins -/
  | request (s : State d) (i : Nat) (l : Listener) (reqs : List HReq) (wakeups order steps : List HTTPEvent) (q : HTTPReq)
      (h : s.listeners[i]? = some (.http l reqs wakeups order)) (hq : requestSteps q = .ok steps) :
      Step d s { s with listeners := s.listeners.set i (.http l (reqs ++ [⟨q, [], steps⟩]) wakeups order) }
  /-- a step of a request -/
  | http (s : State d) (i j : Nat) (l l' : Listener) (reqs : List HReq) (wakeups order todo : List HTTPEvent) (r : HReq) (e : HTTPEvent)
      (h : s.listeners[i]? = some (.http l reqs wakeups order)) (hj : reqs[j]? = some r) (ht : r.todo = e :: todo)
      (hr : l.httpStep e = .ok l') :
      Step d s (({ s with listeners := s.listeners.set i (.http l' (reqs.set j ⟨r.req, r.done ++ [e], todo⟩) wakeups (order ++ [e])) } : State d).publish
        (outOn d.lsub (l'.pubs.drop l.pubs.length)))
  /-- a step of `oldBatchSender` -/
  | wake (s : State d) (i : Nat) (l l' : Listener) (reqs : List HReq) (wakeups order : List HTTPEvent) (tCheck tReset : Int) (fail : Nat → Bool)
      (h : s.listeners[i]? = some (.http l reqs wakeups order)) (hr : l.httpStep (.oldBatch tCheck fail tReset) = .ok l') :
      Step d s (({ s with listeners := s.listeners.set i (.http l' reqs (wakeups ++ [.oldBatch tCheck fail tReset])
        (order ++ [.oldBatch tCheck fail tReset])) } : State d).publish (outOn d.lsub (l'.pubs.drop l.pubs.length)))
  /-- in front of the filter workers -/
  | filterIn (s : State d) (c : Group FComp) (h : Group.Step s.filters c) : Step d s { s with filters := c }
  /-- a filter worker that is not working on a message receives one -/
  | filterTake (s : State d) (f : FComp) (m : Bytes) (c : Group FComp) (hw : f.working = none)
      (h : s.filters.Take m f { f with working := some m } c) : Step d s { s with filters := c }
  /-- it processes the message -/
  | filterDo (s : State d) (f : FComp) (m : Bytes) (now : Int) (fail : Nat → Bool) (w' : FWorker) (st' : FStats) (pubs : List Pub)
      (c : Group FComp) (hw : f.working = some m) (hr : f.w.processBatch d.S f.st now fail m = .ok (w', st', pubs))
      (h : s.filters.Work f ⟨w', st', none, f.past ++ [⟨now, fail, m⟩], f.pubss ++ [pubs]⟩ c) :
      Step d s (({ s with filters := c } : State d).publish (outF pubs))
  /-- in front of the worker of a downsampler -/
  | downIn (s : State d) (i : Nat) (x : DComp d.fo) (c : Group (DState d.fo)) (hx : s.downs[i]? = some x) (h : Group.Step x.inp c) :
      Step d s { s with downs := s.downs.set i { x with inp := c } }
  /-- an iteration of the worker with a message -/
  | downTake (s : State d) (i : Nat) (x : DComp d.fo) (m : Bytes) (c : Group (DState d.fo)) (clk : Nat → Int) (now : Int) (ord : MapOrder)
      (fail : Nat → Bool) (k : DState d.fo) (w' : DWorker d.fo) (hx : s.downs[i]? = some x)
      (hr : k.w.step d.S ⟨.msg m clk, now, ord, fail⟩ = .ok w')
      (h : x.inp.Take m k ⟨w', k.evs ++ [⟨.msg m clk, now, ord, fail⟩]⟩ c) :
      Step d s (({ s with downs := s.downs.set i { x with inp := c } } : State d).publish
        (outOn x.out (w'.pubs.drop k.w.pubs.length)))
  /-- an iteration without a message -/
  | downTimeout (s : State d) (i : Nat) (x : DComp d.fo) (c : Group (DState d.fo)) (now : Int) (ord : MapOrder) (fail : Nat → Bool)
      (k : DState d.fo) (w' : DWorker d.fo) (hx : s.downs[i]? = some x) (hr : k.w.step d.S ⟨.timeout, now, ord, fail⟩ = .ok w')
      (h : x.inp.Work k ⟨w', k.evs ++ [⟨.timeout, now, ord, fail⟩]⟩ c) :
      Step d s (({ s with downs := s.downs.set i { x with inp := c } } : State d).publish
        (outOn x.out (w'.pubs.drop k.w.pubs.length)))
  /-- in front of the workers of writers -/
  | writerIn (s : State d) (i : Nat) (x : WComp) (c : Group WSys) (hx : s.writers[i]? = some x) (h : Group.Step x.inp c) :
      Step d s { s with writers := s.writers.set i { x with inp := c } }
  /-- a worker of a writer receives a message -/
  | writerTake (s : State d) (i : Nat) (x : WComp) (m : Bytes) (c : Group WSys) (k k' : WSys) (hx : s.writers[i]? = some x)
      (hr : WStep x.conf k k') (hm : k'.hist = k.hist ++ [.recv m k.now]) (h : x.inp.Take m k k' c) :
      Step d s { s with writers := s.writers.set i { x with inp := c } }
  /-- any other step of a worker, its retry worker, InfluxDB or the clock -/
  | writer (s : State d) (i : Nat) (x : WComp) (c : Group WSys) (k k' : WSys) (hx : s.writers[i]? = some x)
      (hr : WStep x.conf k k') (hm : received k'.hist = received k.hist) (h : x.inp.Work k k' c) :
      Step d s { s with writers := s.writers.set i { x with inp := c } }

/-- A process starts, crashes or ends.  NATS does not keep messages: one that subscribes later does not get what was published before. cmd/influx-spout/main.go:98-115; the crashes are of the environment. -/
inductive Change (d : Setup) : State d → State d → Prop
  | listenerStarts (s : State d) (x : LComp) (h : x.New) : Change d s { s with listeners := s.listeners ++ [x] }
  | listenerEnds (s : State d) (pre post : List LComp) (x : LComp) (h : s.listeners = pre ++ x :: post) :
      Change d s { s with listeners := pre ++ post, crashed := x :: s.crashed }
  | filterStarts (s : State d) (ws : List FComp) (h : ∀ f ∈ ws, f = FComp.new d) : Change d s { s with filters := s.filters.join ws }
  | filterEnds (s : State d) (c : Group FComp) (h : s.filters.Crash c) : Change d s { s with filters := c }
  | downStarts (s : State d) (subject out : Bytes) (period now0 : Int) :
      Change d s { s with downs := s.downs ++ [⟨subject, out, period, now0, ⟨[⟨subject, [], onSubj subject s.out⟩],
        [⟨Pool.start 1 1, [⟨DWorker.new d.fo period now0, []⟩]⟩], []⟩⟩] }
  | downEnds (s : State d) (i : Nat) (x : DComp d.fo) (c : Group (DState d.fo)) (hx : s.downs[i]? = some x) (h : x.inp.Crash c) :
      Change d s { s with downs := s.downs.set i { x with inp := c } }
  /-- a writer that is in no queue group, or the first of its group -/
  | writerStarts (s : State d) (subjects : List Bytes) (conf : WConf) (ws : List WSys)
      (h : ∀ k ∈ ws, ∃ (pages : Nat) (now : Int), k = WSys.start conf pages now) :
      Change d s { s with writers := s.writers ++ [⟨subjects, conf, ⟨subjects.map fun subj => ⟨subj, [], onSubj subj s.out⟩,
        [⟨Pool.start subjects.length ws.length, ws⟩], []⟩⟩] }
  | writerJoins (s : State d) (i : Nat) (x : WComp) (ws : List WSys) (hx : s.writers[i]? = some x)
      (h : ∀ k ∈ ws, ∃ (pages : Nat) (now : Int), k = WSys.start x.conf pages now) :
      Change d s { s with writers := s.writers.set i { x with inp := x.inp.join ws } }
  | writerEnds (s : State d) (i : Nat) (x : WComp) (c : Group WSys) (hx : s.writers[i]? = some x) (h : x.inp.Crash c) :
      Change d s { s with writers := s.writers.set i { x with inp := c } }

/-- Any number of steps of the processes that are running. Any schedule of README.md:34-75. -/
inductive Run (d : Setup) (s0 : State d) : State d → Prop
  | refl : Run d s0 s0
  | step {s s' : State d} : Run d s0 s → Step d s s' → Run d s0 s'

/-- Any number of steps, with processes starting and crashing. Any schedule of README.md:34-75. -/
inductive Reach (d : Setup) (s0 : State d) : State d → Prop
  | refl : Reach d s0 s0
  | step {s s' : State d} : Reach d s0 s → Step d s s' → Reach d s0 s'
  | change {s s' : State d} : Reach d s0 s → Change d s s' → Reach d s0 s'

end Spout.Deploy
