import Verif.Model.Filter
import Verif.Model.Batch
import Verif.Model.Splitter

/-! # Model of package `writer`

One writer worker and its retry worker as two concurrent processes.  Each step is a
region of the Go code without blocking operations; steps interleave in any order
and time passes between them.  Everything observable is recorded, with ghost
identifiers for the chunks, in the history `hist`.  The client library's timeouts, connection reuse and
the contents of error messages are not modelled. -/

namespace Spout

/-! ## influxclient.go -/

/-- What comes of a POST: the request cannot be built (writer/influxclient.go:57-60), the transport fails
(65-68) or there is a response with a status code. -/
inductive Resp where
  | badRequest
  | transport
  | status (code : Int)
  deriving DecidableEq, Repr

/-- `isHTTPPOSTSuccess`, writer/influxclient.go:85-87. -/
def isHTTPPOSTSuccess (code : Int) : Bool := decide (code ≥ 200) && decide (code < 300)

/-- `isHTTPClientError`, writer/influxclient.go:89-91. -/
def isHTTPClientError (code : Int) : Bool := decide (code ≥ 400) && decide (code < 500)

/-- `clientError` without its message, writer/influxclient.go:102-105. -/
structure ClientError where
  permanent : Bool
  deriving DecidableEq, Repr

/-- The error returned by `Write`, writer/influxclient.go:56-83; `none` is nil. -/
def writeError : Resp → Option ClientError
  | .badRequest => some ⟨true⟩
  | .transport => some ⟨false⟩
  | .status code => if isHTTPPOSTSuccess code then none else some ⟨isHTTPClientError code⟩

/-- `isPermanentError`, writer/influxclient.go:120-128. -/
def isPermanentError : Option ClientError → Bool
  | none => false
  | some e => e.permanent

/-! ## retryworker.go: the queue -/

/-- `retryBatch`, writer/retryworker.go:226-229; `id` is ghost. -/
structure RItem where
  id : Nat
  buf : Bytes
  ttl : Int
  deriving DecidableEq, Repr

/-- The scan of `removeOldest`, writer/retryworker.go:212-220: index of the first element
with the smallest `ttl`. -/
def oldestIdx : (i : Nat) → (best : Option (Nat × Int)) → List RItem → Option Nat
  | _, best, [] => best.map (·.1)
  | i, none, b :: bs => oldestIdx (i + 1) (some (i, b.ttl)) bs
  | i, some (k, m), b :: bs => oldestIdx (i + 1) (if b.ttl < m then some (i, b.ttl) else some (k, m)) bs

/-- `removeOldest`, writer/retryworker.go:211-224; also returns what was removed. -/
def removeOldest (q : List RItem) : List RItem × Option RItem :=
  match oldestIdx 0 none q with
  | none => (q, none)
  | some i => (q.eraseIdx i, q[i]?)

/-- `Add`, writer/retryworker.go:164-172, at time `now`. -/
def queueAdd (maxBatches maxTTL now : Int) (q : List RItem) (id : Nat) (buf : Bytes) :
    List RItem × Option RItem :=
  let (q, gone) := if (q.length : Int) ≥ maxBatches then removeOldest q else (q, none)
  (q ++ [⟨id, buf, now + maxTTL⟩], gone)

/-- `Front`, writer/retryworker.go:176-191, at time `now`: the expired batches removed from the front and
the remaining queue, whose first element is returned. -/
def queueFront (now : Int) : List RItem → List RItem × List RItem
  | [] => ([], [])
  | b :: q => if now > b.ttl then let (gone, q) := queueFront now q; (b :: gone, q) else ([], b :: q)

/-- `DropFront`, writer/retryworker.go:194-200. -/
def dropFront : List RItem → List RItem
  | [] => []
  | _ :: q => q

/-- `CycleFront`, writer/retryworker.go:203-209. -/
def cycleFront : List RItem → List RItem
  | [] => []
  | b :: q => q ++ [b]

/-! ## writer.go -/

/-- The settings used.  `batchMaxSize` is `BatchMaxSize.Bytes()` (sizes of 2^63 and more are not
modelled); times are nanoseconds. config/config.go:51-53, 57-59, 62. -/
structure WConf where
  batchMaxCount : Int
  batchMaxSize : Nat
  batchMaxAge : Int
  rules : List Rule
  retryBatches : Int
  retryInterval : Int
  retryTimeout : Int

/-- The loop of the function returned by `getBatchWriteFunc` (writer/writer.go:224-228) with `filterLine`
(232-237). -/
def appendMatching (rules : List Rule) (now : Int) : Batch → List Bytes → Go Batch
  | b, [] => .ok b
  | b, line :: lines => do
    if line.length = 0 then appendMatching rules now b lines
    else
      match ← lookup rules line with
      | none => appendMatching rules now b lines
      | some _ => do
        let b ← b.append line now
        appendMatching rules now b lines

/-- `batchAppend`: the function returned by `getBatchWriteFunc`, writer/writer.go:214-230.  All clock
readings of one call are equal (only the first one matters to the batch). -/
def batchAppend (rules : List Rule) (b : Batch) (data : Bytes) (now : Int) : Go Batch :=
  if rules.length = 0 then b.append data now
  else appendMatching rules now b (splitAfterNL data)

/-- `shouldSend`, writer/writer.go:239-243. -/
def wShouldSend (c : WConf) (b : Batch) (now : Int) : Bool :=
  decide ((b.writes : Int) ≥ c.batchMaxCount) || decide (b.size ≥ c.batchMaxSize) ||
    decide (b.age now ≥ c.batchMaxAge)

/-- What can be observed, with the chunk numbers `i` given in order of first attempts. writer/writer.go:169-206, writer/retryworker.go:99-118. -/
inductive WEv where
  /-- a message was received -/
  | recv (data : Bytes) (t : Int)
  /-- the worker starts writing the batch -/
  | flush (data : Bytes) (t : Int)
  /-- first attempt to write chunk `i`, with its outcome -/
  | first (i : Nat) (data : Bytes) (r : Resp) (t : Int)
  /-- chunk `i` was put in the retry queue -/
  | queued (i : Nat) (t : Int)
  /-- chunk `i` was removed from the full queue -/
  | evicted (i : Nat) (t : Int)
  /-- chunk `i` was removed because of its age -/
  | expired (i : Nat) (t : Int)
  /-- a retry write of chunk `i` begins -/
  | attempt (i : Nat) (data : Bytes) (t : Int)
  /-- the retry write of chunk `i` ends -/
  | result (i : Nat) (r : Resp) (t : Int)
  deriving DecidableEq, Repr

/-- Where the worker is. writer/writer.go:167-211. -/
inductive WPhase where
  /-- in the `select` (writer/writer.go:168-181), with the `time.After` timer expiring at `wake` -/
  | select (wake : Int)
  /-- at line 183 -/
  | check
  /-- in the loop at 191 with these chunks left -/
  | sending (rest : List Bytes)
  /-- at 203, sending chunk `i` to `retryCh` -/
  | handoff (i : Nat) (chunk : Bytes) (rest : List Bytes)
  | stopped
  deriving DecidableEq, Repr

/-- Where the retry worker is. writer/retryworker.go:92-120. -/
inductive RPhase where
  /-- at line 93 of writer/retryworker.go -/
  | top
  /-- in the `select` (96-101) -/
  | select
  /-- in `dbWriter.Write` (107), the batch being the front of the queue -/
  | writing (i : Nat)
  | stopped
  deriving DecidableEq, Repr

/-- The counters, writer/writer.go:40-42, as natural numbers. -/
structure WStats where
  received : Nat
  writeRequests : Nat
  failedWrites : Nat
  deriving DecidableEq, Repr

/-- A worker and its retry worker. writer/writer.go:147-166, writer/retryworker.go:64-73. -/
structure WSys where
  now : Int
  stop : Bool
  phase : WPhase
  batch : Batch
  stats : WStats
  /-- `retryCh`, a channel of capacity 1 -/
  ch : Option (Nat × Bytes)
  /-- number of reports in the channels `writes` and `writeErrors` -/
  writesCh : Nat
  errsCh : Nat
  rphase : RPhase
  queue : List RItem
  /-- when the timer `nextSend` expires -/
  nextSend : Option Int
  /-- ghost: reports lost because the channel was full -/
  lostWrites : Nat
  lostErrs : Nat
  /-- ghost: number of first attempts so far -/
  nextId : Nat
  /-- ghost -/
  hist : List WEv
  deriving DecidableEq, Repr

/-- One second. writer/writer.go:177. -/
def second : Int := 1000000000

/-- `worker` up to the loop (writer/writer.go:147-167) and `newRetryWorker` (writer/retryworker.go:29-46);
`pages` is 32 times the page size.  Without retries there is no retry worker. -/
def WSys.start (c : WConf) (pages : Nat) (now : Int) : WSys :=
  { now := now, stop := false, phase := .select (now + second), batch := Batch.new pages now,
    stats := ⟨0, 0, 0⟩, ch := none, writesCh := 0, errsCh := 0,
    rphase := if c.retryBatches > 0 then .top else .stopped,
    queue := [], nextSend := none, lostWrites := 0, lostErrs := 0, nextId := 0, hist := [] }

/-- `reportWrite` (writer/retryworker.go:123-128): never blocks. -/
def WSys.reportWrite (c : WConf) (s : WSys) : WSys :=
  if (s.writesCh : Int) < c.retryBatches * 4 then { s with writesCh := s.writesCh + 1 }
  else { s with lostWrites := s.lostWrites + 1 }

/-- `reportError` (writer/retryworker.go:130-135): never blocks. -/
def WSys.reportError (c : WConf) (s : WSys) : WSys :=
  if (s.errsCh : Int) < c.retryBatches * 4 then { s with errsCh := s.errsCh + 1 }
  else { s with lostErrs := s.lostErrs + 1 }

/-- writer/retryworker.go:108-117: what the retry worker does with the outcome. -/
def WSys.finishRetry (c : WConf) (s : WSys) (r : Resp) : WSys :=
  match writeError r with
  | some e =>
    let s := if isPermanentError (some e) then { s with queue := dropFront s.queue }
             else { s with queue := cycleFront s.queue }
    s.reportError c
  | none => { s with queue := dropFront s.queue }

/-- One step. writer/writer.go:167-211, writer/retryworker.go:88-121. -/
inductive WStep (c : WConf) : WSys → WSys → Prop
  /-- time passes -/
  | tick (s : WSys) (t : Int) (h : s.now ≤ t) : WStep c s { s with now := t }
  /-- `Stop` is called (writer/writer.go:138) -/
  | stop (s : WSys) : WStep c s { s with stop := true }
  /-- a message (writer/writer.go:169-171) -/
  | recv (s : WSys) (w : Int) (data : Bytes) (b : Batch) (hp : s.phase = .select w)
      (hb : batchAppend c.rules s.batch data s.now = .ok b) :
      WStep c s { s with phase := .check, batch := b, hist := s.hist ++ [.recv data s.now],
                         stats := { s.stats with received := s.stats.received + 1 } }
  /-- lines 172-173 -/
  | gotWrite (s : WSys) (w : Int) (n : Nat) (hp : s.phase = .select w) (hn : s.writesCh = n + 1) :
      WStep c s { s with phase := .check, writesCh := n,
                         stats := { s.stats with writeRequests := s.stats.writeRequests + 1 } }
  /-- lines 174-176 -/
  | gotError (s : WSys) (w : Int) (n : Nat) (hp : s.phase = .select w) (hn : s.errsCh = n + 1) :
      WStep c s { s with phase := .check, errsCh := n,
                         stats := { s.stats with failedWrites := s.stats.failedWrites + 1 } }
  /-- line 177 -/
  | wake (s : WSys) (w : Int) (hp : s.phase = .select w) (hw : w ≤ s.now) : WStep c s { s with phase := .check }
  /-- lines 179-180 -/
  | quit (s : WSys) (w : Int) (hp : s.phase = .select w) (hs : s.stop = true) : WStep c s { s with phase := .stopped }
  /-- line 183 when nothing is to be sent; the loop starts over -/
  | keep (s : WSys) (hp : s.phase = .check) (h : wShouldSend c s.batch s.now = false) :
      WStep c s { s with phase := .select (s.now + second) }
  /-- lines 183-190 -/
  | flush (s : WSys) (chunks : List Bytes) (hp : s.phase = .check) (h : wShouldSend c s.batch s.now = true)
      (hc : splitAll s.batch.bytes c.batchMaxSize = .ok chunks) :
      WStep c s { s with phase := .sending chunks, hist := s.hist ++ [.flush s.batch.bytes s.now],
                         stats := { s.stats with writeRequests := s.stats.writeRequests + 1 } }
  /-- lines 191-193: a write that succeeds -/
  | firstOk (s : WSys) (chunk : Bytes) (rest : List Bytes) (r : Resp) (hp : s.phase = .sending (chunk :: rest))
      (hr : writeError r = none) :
      WStep c s { s with phase := .sending rest, nextId := s.nextId + 1,
                         hist := s.hist ++ [.first s.nextId chunk r s.now] }
  /-- lines 191-203: a write that fails; the copy made at 201-202 is what is sent to `retryCh` -/
  | firstFail (s : WSys) (chunk : Bytes) (rest : List Bytes) (r : Resp) (e : ClientError)
      (hp : s.phase = .sending (chunk :: rest)) (hr : writeError r = some e) :
      WStep c s { s with phase := if c.retryBatches > 0 then .handoff s.nextId chunk rest else .sending rest,
                         nextId := s.nextId + 1, hist := s.hist ++ [.first s.nextId chunk r s.now],
                         stats := { s.stats with failedWrites := s.stats.failedWrites + 1 } }
  /-- line 203: the send to `retryCh` succeeds when the channel has room -/
  | handoff (s : WSys) (i : Nat) (chunk : Bytes) (rest : List Bytes) (hp : s.phase = .handoff i chunk rest)
      (hc : s.ch = none) : WStep c s { s with phase := .sending rest, ch := some (i, chunk) }
  /-- line 209 and the start of the next iteration -/
  | sent (s : WSys) (hp : s.phase = .sending []) :
      WStep c s { s with phase := .select (s.now + second), batch := s.batch.reset s.now }
  /-- lines 93-96 of writer/retryworker.go -/
  | arm (s : WSys) (hp : s.rphase = .top) :
      WStep c s { s with rphase := .select,
                         nextSend := if s.nextSend = none ∧ s.queue.length > 0 then some (s.now + c.retryInterval)
                                     else s.nextSend }
  /-- lines 99-100 of writer/retryworker.go -/
  | input (s : WSys) (i : Nat) (buf : Bytes) (q : List RItem) (gone : Option RItem) (hp : s.rphase = .select)
      (hc : s.ch = some (i, buf)) (hq : queueAdd c.retryBatches c.retryTimeout s.now s.queue i buf = (q, gone)) :
      WStep c s { s with rphase := .top, ch := none, queue := q,
                         hist := s.hist ++ (gone.toList.map fun g => .evicted g.id s.now) ++ [.queued i s.now] }
  /-- lines 101-105 of writer/retryworker.go: the timer has expired; nothing left to send -/
  | fireEmpty (s : WSys) (d : Int) (gone : List RItem) (hp : s.rphase = .select) (hd : s.nextSend = some d)
      (ht : d ≤ s.now) (hf : queueFront s.now s.queue = (gone, [])) :
      WStep c s { s with rphase := .top, nextSend := none, queue := [],
                         hist := s.hist ++ gone.map fun g => .expired g.id s.now }
  /-- lines 101-107: the front of the queue is written -/
  | fire (s : WSys) (d : Int) (gone : List RItem) (b : RItem) (q : List RItem) (hp : s.rphase = .select)
      (hd : s.nextSend = some d) (ht : d ≤ s.now) (hf : queueFront s.now s.queue = (gone, b :: q)) :
      WStep c s (WSys.reportWrite c
        { s with rphase := .writing b.id, nextSend := none, queue := b :: q,
                 hist := s.hist ++ (gone.map fun g => .expired g.id s.now) ++ [.attempt b.id b.buf s.now] })
  /-- lines 107-118: the write ends -/
  | finish (s : WSys) (i : Nat) (r : Resp) (hp : s.rphase = .writing i) :
      WStep c s (WSys.finishRetry c { s with rphase := .top, hist := s.hist ++ [.result i r s.now] } r)
  /-- lines 97-98: the worker has returned and called `rw.Stop` -/
  | retryQuit (s : WSys) (hp : s.rphase = .select) (hw : s.phase = .stopped) : WStep c s { s with rphase := .stopped }

/-- Any number of steps. Any schedule of writer/writer.go:167-211 and writer/retryworker.go:88-121. -/
inductive WReach (c : WConf) : WSys → WSys → Prop
  | refl (s : WSys) : WReach c s s
  | step {a b d : WSys} : WReach c a b → WStep c b d → WReach c a d

end Spout
