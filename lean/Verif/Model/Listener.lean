import Verif.Model.Influx
import Verif.Model.Batch
import Verif.Model.Splitter

/-! # Model of package `listener`

Clock readings and NATS publish outcomes are arguments of the transitions.
Publishing is recorded in the ghost field `pubs`. -/

namespace Spout

/-- `maxUDPDatagramSize`, listener/listener.go:48. -/
def maxUDPDatagramSize : Nat := 65536

/-- `config.MaxNATSMsgSize` = `datasize.MB`, config/config.go:34. -/
def maxNATSMsgSize : Nat := 1048576

/-- The configuration settings the listener uses.  `batchMaxSize` is
`int(c.BatchMaxSize.Bytes())`; values of 2^63 and more are not modelled. config/config.go:51-53. -/
structure LConf where
  batchMaxCount : Int
  batchMaxAge : Int
  batchMaxSize : Nat
  deriving DecidableEq, Repr

/-- The listener's counters, listener/listener.go:42-46, as natural numbers. -/
structure LStats where
  received : Nat
  sent : Nat
  readErrors : Nat
  failedPublish : Nat
  deriving DecidableEq, Repr

/-- One call of `nc.Publish` to the data subject. listener/listener.go:405. -/
structure LPub where
  data : Bytes
  failed : Bool
  deriving DecidableEq, Repr

/-- `Listener`, listener/listener.go:103-114. -/
structure Listener where
  conf : LConf
  batch : Batch
  stats : LStats
  /-- ghost: every Publish call so far -/
  pubs : List LPub
  deriving DecidableEq, Repr

namespace Listener

/-- `newListener`, listener/listener.go:128-149. -/
def new (c : LConf) (now : Int) : Listener :=
  ⟨c, Batch.new c.batchMaxSize now, ⟨0, 0, 0, 0⟩, []⟩

/-- `shouldSend`, listener/listener.go:371-388. -/
def shouldSend (l : Listener) (now : Int) : Bool :=
  if (l.batch.writes : Int) ≥ l.conf.batchMaxCount then true
  else if l.batch.age now ≥ l.conf.batchMaxAge then true
  else if (l.conf.batchMaxSize : Int) - l.batch.size ≤ maxUDPDatagramSize then true
  else false

/-- `sendBatch`, listener/listener.go:390-411.  `fail k` tells whether the k-th
publish of this call fails; `now` is the clock reading in `Reset`. -/
def sendBatch (l : Listener) (fail : Nat → Bool) (now : Int) : Go Listener :=
  if l.batch.size < 1 then .ok l                                           -- 391-393
  else do
    let chunks ← splitAll l.batch.bytes maxNATSMsgSize                     -- 403-409
    let pubs := chunks.zipIdx.map fun x => (⟨x.1, fail x.2⟩ : LPub)
    return { l with
      stats := { l.stats with sent := l.stats.sent + 1,
                              failedPublish := l.stats.failedPublish + pubs.countP (·.failed) }
      pubs := l.pubs ++ pubs
      batch := l.batch.reset now }                                         -- 410

/-- `maybeSendBatch`, listener/listener.go:365-369. -/
def maybeSendBatch (l : Listener) (tCheck : Int) (fail : Nat → Bool) (tReset : Int) : Go Listener :=
  if l.shouldSend tCheck then l.sendBatch fail tReset else .ok l

/-- `isTimeout` (listener/listener.go:435-440) is abstracted into `readErr`.

One iteration of the UDP loop: the datagram read (empty if none), whether an
error other than a timeout was returned, clock readings, publish outcomes. -/
structure UDPEvent where
  data : Bytes
  readErr : Bool
  tRead : Int
  tCheck : Int
  tReset : Int
  fail : Nat → Bool

/-- The body of the loop of `listenUDP`, listener/listener.go:188-211. -/
def udpStep (l : Listener) (e : UDPEvent) : Go Listener := do
  let (b, n) ← l.batch.readOnceFrom e.data e.tRead
  let l := { l with batch := b }
  let l := if e.readErr then
      { l with stats := { l.stats with readErrors := l.stats.readErrors + 1 } } else l
  let l ← (if n > 0 then do
      let b ← l.batch.ensureNewline
      return { l with batch := b, stats := { l.stats with received := l.stats.received + 1 } }
    else .ok l : Go Listener)
  l.maybeSendBatch e.tCheck e.fail e.tReset

/-- The UDP listener over a history of iterations. listener/listener.go:188-211. -/
def udpRun : Listener → List UDPEvent → Go Listener
  | l, [] => .ok l
  | l, e :: es => do udpRun (← l.udpStep e) es

/-! ## HTTP -/

/-- `applyTimestampPrecision`, listener/listener.go:331-346. -/
def applyTimestampPrecision (line precision : Bytes) : Go Bytes := do
  let (ts, offset) ← extractTimestamp line
  if offset = -1 then return line
  else match safeCalcTime ts precision with
    | none => return line
    | some newTs =>
      let head ← sliceTo line offset.toNat
      return head ++ itoa newTs ++ [NL]

/-- `bufio.MaxScanTokenSize`. Used by listener/listener.go:289. -/
def maxScanToken : Nat := 65536

/-- The tokens that `bufio.Scanner` with `scanLines` (listener/listener.go:313-329)
delivers for a body, and whether it stopped with `ErrTooLong`.  A line fits if,
with its newline, it has at most 65536 bytes; an unterminated last line must be
shorter than that.  (Behaviour of the standard library, from its documentation and
source.) -/
def scanTokens : List Bytes → List Bytes × Bool
  | [] => ([], false)
  | l :: ls =>
    if l = [] then scanTokens ls
    else if l.length < maxScanToken ∨ (l.length = maxScanToken ∧ l.getLast? = some NL) then
      let (ts, e) := scanTokens ls
      (l :: ts, e)
    else ([], true)

/-- The lines `readHTTPBodyWithPrecision` (listener/listener.go:288-311) appends for a
body: those longer than one byte, converted. -/
def precisionLines (precision : Bytes) : List Bytes → Go (List Bytes)
  | [] => .ok []
  | line :: lines =>
    if line.length ≤ 1 then precisionLines precision lines
    else do
      let l ← applyTimestampPrecision line precision
      let ls ← precisionLines precision lines
      return l :: ls

/-- The lock-protected regions of the HTTP listener and its counter updates.  Requests run
concurrently; any interleaving of these steps is possible. listener/listener.go:232-242, 249-265, 283-285, 306-308. -/
inductive HTTPEvent where
  /-- `readHTTPBodyNanos` (282-286): the whole body under the lock -/
  | body (r : Batch.Reader) (now : Int)
  /-- one `Append` of `readHTTPBodyWithPrecision` (306-308) -/
  | line (data : Bytes) (now : Int)
  /-- the `if` of `handleHTTPWrite` (251-260) after a request with data -/
  | maybeSend (tCheck : Int) (fail : Nat → Bool) (tReset : Int)
  /-- lines 261-263 of `handleHTTPWrite` after a failed read -/
  | readErr
  /-- `oldBatchSender` waking up (237-242) -/
  | oldBatch (tCheck : Int) (fail : Nat → Bool) (tReset : Int)

/-- Perform a step. listener/listener.go:232-242, 249-265, 283-285, 306-308. -/
def httpStep (l : Listener) : HTTPEvent → Go Listener
  | .body r now => do
    let (b, _) ← l.batch.readFrom r now
    return { l with batch := b }
  | .line data now => do
    let b ← l.batch.append data now
    return { l with batch := b }
  | .maybeSend tCheck fail tReset => do
    let l := { l with stats := { l.stats with received := l.stats.received + 1 } }
    l.maybeSendBatch tCheck fail tReset
  | .readErr => .ok { l with stats := { l.stats with readErrors := l.stats.readErrors + 1 } }
  | .oldBatch tCheck fail tReset =>
    if l.batch.age tCheck ≥ l.conf.batchMaxAge then l.sendBatch fail tReset else .ok l

/-- A request to `/write`: the precision parameter ("" if absent), the body, whether
reading it ended with an error other than EOF, the clock readings and publish outcomes
during its steps. listener/listener.go:249-280. -/
structure HTTPReq where
  precision : Bytes
  body : Batch.Reader
  readErr : Bool
  clk : Nat → Int
  fail : Nat → Bool

/-- All bytes of the body. listener/listener.go:285, 289. -/
def HTTPReq.bytes (q : HTTPReq) : Bytes := q.body.pieces.flatten ++ q.body.last

/-- The steps performed by `handleHTTPWrite`, `readHTTPBody`, `readHTTPBodyNanos` and
`readHTTPBodyWithPrecision` (listener/listener.go:249-311) for one request. -/
def requestSteps (q : HTTPReq) : Go (List HTTPEvent) :=
  if q.precision = b!"" ∨ q.precision = b!"ns" then
    .ok (HTTPEvent.body q.body (q.clk 0) ::
      ((if 0 < q.bytes.length then [HTTPEvent.maybeSend (q.clk 1) q.fail (q.clk 2)] else []) ++
       (if q.readErr then [HTTPEvent.readErr] else [])))
  else do
    let toks := scanTokens (splitAfterNL q.bytes)
    let lines ← precisionLines q.precision toks.1
    return (lines.zipIdx.map fun x => HTTPEvent.line x.1 (q.clk x.2)) ++
      ((if 0 < toks.1.flatten.length then
          [HTTPEvent.maybeSend (q.clk lines.length) q.fail (q.clk (lines.length + 1))] else []) ++
       (if toks.2 || q.readErr then [HTTPEvent.readErr] else []))

/-- The status of the answer to a request to `/write`, listener/listener.go:264: the same whatever
became of the body. -/
def httpStatus (_ : HTTPReq) : Int := 204

/-- The HTTP listener over a history. listener/listener.go:229-265. -/
def httpRun : Listener → List HTTPEvent → Go Listener
  | l, [] => .ok l
  | l, e :: es => do httpRun (← l.httpStep e) es

/-! ## The age-triggered sender in time -/

/-- Where `oldBatchSender` (listener/listener.go:229-247) is. -/
inductive SPhase where
  /-- about to compute the wait time (line 232), since the given time -/
  | arming (since : Int)
  /-- in the `select` (236); the timer was started so that it expires at the given time -/
  | waiting (deadline : Int)
  deriving DecidableEq, Repr

/-- The HTTP listener with a clock. listener/listener.go:229-265. -/
structure Timed where
  l : Listener
  now : Int
  phase : SPhase

/-- One step of the HTTP listener in time.  `D` bounds how long the sender goroutine can be
delayed (timer latency, waiting for the lock) at each of its two lock acquisitions. listener/listener.go:229-265. -/
inductive TStep (D : Int) : Timed → Timed → Prop
  /-- time passes; a due sender is not delayed by more than `D` -/
  | tick (s : Timed) (t : Int) (h : s.now ≤ t)
      (hd : match s.phase with | .arming f => t ≤ f + D | .waiting d => t ≤ d + D) :
      TStep D s { s with now := t }
  /-- a step of a request, at the current time (appended lines are never empty, see
  `C52_lines_not_empty`) -/
  | body (s : Timed) (r : Batch.Reader) (l' : Listener) (h : s.l.httpStep (.body r s.now) = .ok l') :
      TStep D s { s with l := l' }
  | line (s : Timed) (d : Bytes) (l' : Listener) (hne : d ≠ []) (h : s.l.httpStep (.line d s.now) = .ok l') :
      TStep D s { s with l := l' }
  | maybeSend (s : Timed) (fail : Nat → Bool) (l' : Listener)
      (h : s.l.httpStep (.maybeSend s.now fail s.now) = .ok l') : TStep D s { s with l := l' }
  | readErr (s : Timed) (l' : Listener) (h : s.l.httpStep .readErr = .ok l') : TStep D s { s with l := l' }
  /-- lines 232-236: the wait time is computed and the timer started; `time.After` of a
  non-positive duration expires at once -/
  | arm (s : Timed) (f : Int) (hp : s.phase = .arming f) :
      TStep D s { s with phase := .waiting (s.now + max 0 (s.l.conf.batchMaxAge - s.l.batch.age s.now)) }
  /-- lines 237-242: the timer has expired -/
  | fire (s : Timed) (d : Int) (fail : Nat → Bool) (l' : Listener) (hp : s.phase = .waiting d) (hd : d ≤ s.now)
      (h : s.l.httpStep (.oldBatch s.now fail s.now) = .ok l') :
      TStep D s { s with l := l', phase := .arming s.now }

/-- Any number of steps. listener/listener.go:229-265. -/
inductive TReach (D : Int) : Timed → Timed → Prop
  | refl (s : Timed) : TReach D s s
  | step {a b c : Timed} : TReach D a b → TStep D b c → TReach D a c

end Listener

/-- `roundUpToPageSize`, listener/listener.go:173-179. -/
def roundUpToPageSize (pageSize n : Nat) : Nat :=
  if n ≤ 0 then pageSize else (n + pageSize - 1) / pageSize * pageSize

end Spout
