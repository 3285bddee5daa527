import Verif.Lemmas.Filter
import Verif.Model.Writer

/-! # The model runs the project's own tests: writer

See Conformance/Influx.  The model of the writer is a transition relation, so
the schedule of a test is written down as a list of actions; `exec` makes the
step of the model that an action names, as `exec_sound` proves.  Times are
milliseconds of the test, and every reaction of the program takes a
millisecond. -/

namespace Spout.Conformance

/-- The actions of the program and of its environment. -/
inductive WAct where
  | tick (d : Int)
  | recv (data : Bytes)
  | gotWrite
  | gotError
  | wake
  | check
  | write (r : Resp)
  | handoff
  | sent
  | arm
  | input
  | fire
  | finish (r : Resp)
  deriving DecidableEq

/-- The step that an action names, if it is possible. -/
def exec (c : WConf) (s : WSys) : WAct → Option WSys
  | .tick d => if 0 ≤ d then some { s with now := s.now + d } else none
  | .recv data => match s.phase with
    | .select _ => match batchAppend c.rules s.batch data s.now with
      | .ok b => some { s with phase := .check, batch := b, hist := s.hist ++ [.recv data s.now],
                               stats := { s.stats with received := s.stats.received + 1 } }
      | .panic => none
    | _ => none
  | .gotWrite => match s.phase, s.writesCh with
    | .select _, n + 1 => some { s with phase := .check, writesCh := n,
                                        stats := { s.stats with writeRequests := s.stats.writeRequests + 1 } }
    | _, _ => none
  | .gotError => match s.phase, s.errsCh with
    | .select _, n + 1 => some { s with phase := .check, errsCh := n,
                                        stats := { s.stats with failedWrites := s.stats.failedWrites + 1 } }
    | _, _ => none
  | .wake => match s.phase with
    | .select w => if w ≤ s.now then some { s with phase := .check } else none
    | _ => none
  | .check => match s.phase with
    | .check => match wShouldSend c s.batch s.now, splitAll s.batch.bytes c.batchMaxSize with
      | false, _ => some { s with phase := .select (s.now + second) }
      | true, .ok chunks => some { s with phase := .sending chunks, hist := s.hist ++ [.flush s.batch.bytes s.now],
                                          stats := { s.stats with writeRequests := s.stats.writeRequests + 1 } }
      | true, .panic => none
    | _ => none
  | .write r => match s.phase with
    | .sending (chunk :: rest) => match writeError r with
      | none => some { s with phase := .sending rest, nextId := s.nextId + 1,
                              hist := s.hist ++ [.first s.nextId chunk r s.now] }
      | some _ => some { s with phase := if c.retryBatches > 0 then .handoff s.nextId chunk rest else .sending rest,
                                nextId := s.nextId + 1, hist := s.hist ++ [.first s.nextId chunk r s.now],
                                stats := { s.stats with failedWrites := s.stats.failedWrites + 1 } }
    | _ => none
  | .handoff => match s.phase, s.ch with
    | .handoff i chunk rest, none => some { s with phase := .sending rest, ch := some (i, chunk) }
    | _, _ => none
  | .sent => match s.phase with
    | .sending [] => some { s with phase := .select (s.now + second), batch := s.batch.reset s.now }
    | _ => none
  | .arm => match s.rphase with
    | .top => some { s with rphase := .select,
                            nextSend := if s.nextSend = none ∧ s.queue.length > 0 then some (s.now + c.retryInterval)
                                        else s.nextSend }
    | _ => none
  | .input => match s.rphase, s.ch with
    | .select, some (i, buf) => match queueAdd c.retryBatches c.retryTimeout s.now s.queue i buf with
      | (q, gone) => some { s with rphase := .top, ch := none, queue := q,
                                   hist := s.hist ++ (gone.toList.map fun g => .evicted g.id s.now) ++ [.queued i s.now] }
    | _, _ => none
  | .fire => match s.rphase, s.nextSend with
    | .select, some d =>
      if d ≤ s.now then
        match queueFront s.now s.queue with
        | (gone, []) => some { s with rphase := .top, nextSend := none, queue := [],
                                      hist := s.hist ++ gone.map fun g => .expired g.id s.now }
        | (gone, b :: q) => some (WSys.reportWrite c
          { s with rphase := .writing b.id, nextSend := none, queue := b :: q,
                   hist := s.hist ++ (gone.map fun g => .expired g.id s.now) ++ [.attempt b.id b.buf s.now] })
      else none
    | _, _ => none
  | .finish r => match s.rphase with
    | .writing i => some (WSys.finishRetry c { s with rphase := .top, hist := s.hist ++ [.result i r s.now] } r)
    | _ => none

/-- Every executed action is a step of the model. -/
theorem exec_sound {c : WConf} {s s' : WSys} {a : WAct} (h : exec c s a = some s') : WStep c s s' := by
  cases a with
  | tick d =>
    simp only [exec] at h
    split at h
    · injection h with h; subst h; exact .tick s _ (by omega)
    · exact absurd h (by simp)
  | recv data =>
    simp only [exec] at h
    split at h
    · split at h
      · injection h with h; subst h; exact .recv s _ data _ (by assumption) (by assumption)
      · exact absurd h (by simp)
    · exact absurd h (by simp)
  | gotWrite =>
    simp only [exec] at h
    split at h
    · injection h with h; subst h; exact .gotWrite s _ _ (by assumption) (by assumption)
    · exact absurd h (by simp)
  | gotError =>
    simp only [exec] at h
    split at h
    · injection h with h; subst h; exact .gotError s _ _ (by assumption) (by assumption)
    · exact absurd h (by simp)
  | wake =>
    simp only [exec] at h
    split at h
    · split at h
      · injection h with h; subst h; exact .wake s _ (by assumption) (by assumption)
      · exact absurd h (by simp)
    · exact absurd h (by simp)
  | check =>
    simp only [exec] at h
    split at h
    · split at h
      · injection h with h; subst h; exact .keep s (by assumption) (by assumption)
      · injection h with h; subst h; exact .flush s _ (by assumption) (by assumption) (by assumption)
      · exact absurd h (by simp)
    · exact absurd h (by simp)
  | write r =>
    simp only [exec] at h
    split at h
    · split at h
      · injection h with h; subst h; exact .firstOk s _ _ r (by assumption) (by assumption)
      · injection h with h; subst h; exact .firstFail s _ _ r _ (by assumption) (by assumption)
    · exact absurd h (by simp)
  | handoff =>
    simp only [exec] at h
    split at h
    · injection h with h; subst h; exact .handoff s _ _ _ (by assumption) (by assumption)
    · exact absurd h (by simp)
  | sent =>
    simp only [exec] at h
    split at h
    · injection h with h; subst h; exact .sent s (by assumption)
    · exact absurd h (by simp)
  | arm =>
    simp only [exec] at h
    split at h
    · injection h with h; subst h; exact .arm s (by assumption)
    · exact absurd h (by simp)
  | input =>
    simp only [exec] at h
    split at h
    · injection h with h; subst h; exact .input s _ _ _ _ (by assumption) (by assumption) rfl
    · exact absurd h (by simp)
  | fire =>
    simp only [exec] at h
    split at h
    · split at h
      · split at h
        · injection h with h; subst h; exact .fireEmpty s _ _ (by assumption) (by assumption) (by assumption) (by assumption)
        · injection h with h; subst h; exact .fire s _ _ _ _ (by assumption) (by assumption) (by assumption) (by assumption)
      · exact absurd h (by simp)
    · exact absurd h (by simp)
  | finish r =>
    simp only [exec] at h
    split at h
    · injection h with h; subst h; exact .finish s _ r (by assumption)
    · exact absurd h (by simp)

/-- A schedule. -/
def execs (c : WConf) : WSys → List WAct → Option WSys
  | s, [] => some s
  | s, a :: as => match exec c s a with
    | some s' => execs c s' as
    | none => none

theorem execs_sound {c : WConf} {s0 s s' : WSys} {as : List WAct} (hr : WReach c s0 s) (h : execs c s as = some s') :
    WReach c s0 s' := by
  induction as generalizing s with
  | nil => injection h with h; subst h; exact hr
  | cons a as ih =>
    simp only [execs] at h
    split at h
    · exact ih (.step hr (exec_sound (by assumption))) h
    · exact absurd h (by simp)

def ms : Int := 1000000

/-- The requests in order: their bodies and whether they were retries. -/
def requests (s : WSys) : List (Bytes × Bool) := s.hist.filterMap fun
  | .first _ d _ _ => some (d, false)
  | .attempt _ d _ => some (d, true)
  | _ => none

/-- `testConfig` of writer_medium_test.go (without rules and retries). -/
def wconf : WConf := ⟨1, 10485760, 300000 * ms, [], 0, 0, 0⟩

def wstart (c : WConf) : WSys := .start c 131072 0

/-- Receive a message that completes the batch, and write it in one chunk. -/
def one (m : Bytes) : List WAct := [.tick ms, .recv m, .check, .write (.status 200), .sent]

/-- TestBasicWriter: five messages, five writes; received 5, write_requests 5, failed_writes 0 -/
example : (execs wconf (wstart wconf) (one b!"To be, or not to be: that is the question:"
      ++ one b!"Whether ’tis nobler in the mind to suffer" ++ one b!"The slings and arrows of outrageous fortune,"
      ++ one b!"Or to take arms against a sea of troubles," ++ one b!"And by opposing end them. To die: to sleep;")).map
      (fun s => (requests s, s.stats))
    = some ([(b!"To be, or not to be: that is the question:", false), (b!"Whether ’tis nobler in the mind to suffer", false),
      (b!"The slings and arrows of outrageous fortune,", false), (b!"Or to take arms against a sea of troubles,", false),
      (b!"And by opposing end them. To die: to sleep;", false)], ⟨5, 5, 0⟩) := by decide +kernel

/-- Messages that do not complete the batch. -/
def more (m : Bytes) : List WAct := [.tick ms, .recv m, .check]

/-- TestBatchMBLimit, with chunks of 25 and a limit of 100: one write of exactly the limit -/
example : (execs { wconf with batchMaxCount := 9999, batchMaxSize := 100 } (wstart wconf)
      (more (List.replicate 25 120) ++ more (List.replicate 25 120) ++ more (List.replicate 25 120)
        ++ one (List.replicate 25 120))).map (fun s => (requests s).map (·.1.length)) = some [100] := by decide +kernel

/-- TestBatchMBLimitOvershoot: a write of 100 bytes and one of 20.  (A newline after the hundredth byte would be part of the
first, see `C02_chunk_limit_violated`.) -/
example : (execs { wconf with batchMaxCount := 9999, batchMaxSize := 100 } (wstart wconf)
      (more (List.replicate 30 120) ++ more (List.replicate 30 120) ++ more (List.replicate 30 120)
        ++ [.tick ms, .recv (List.replicate 30 120), .check, .write (.status 200), .write (.status 200), .sent])).map
      (fun s => (requests s).map (·.1.length)) = some [100, 20] := by decide +kernel

/-- TestBatchTimeLimit: one small message is written once the age limit has passed -/
example : (execs { wconf with batchMaxCount := 9999, batchMaxAge := 1000 * ms } (wstart wconf)
      (more b!"foo" ++ [.tick (1000 * ms), .wake, .check, .write (.status 200), .sent, .tick (1000 * ms), .wake, .check])).map
      (fun s => (requests s, s.phase)) = some ([(b!"foo", false)], .select (3001 * ms)) := by decide +kernel

/-- TestWriteRetries: the first request fails with 502, the second with 503, the third succeeds; received 1,
write_requests 3, failed_writes 2 -/
example : (execs { wconf with retryBatches := 1, retryInterval := 250 * ms, retryTimeout := 5000 * ms }
      (wstart { wconf with retryBatches := 1 })
      ([.arm, .tick ms, .recv b!"Out, out, brief candle!", .check, .write (.status 502), .handoff, .sent,
        .tick ms, .input, .arm, .tick (250 * ms), .fire, .tick ms, .finish (.status 503), .arm, .gotWrite, .check, .gotError, .check,
        .tick (250 * ms), .fire, .tick ms, .finish (.status 200), .arm, .gotWrite, .check])).map
      (fun s => (requests s, s.stats, s.queue))
    = some ([(b!"Out, out, brief candle!", false), (b!"Out, out, brief candle!", true), (b!"Out, out, brief candle!", true)],
      ⟨1, 3, 2⟩, []) := by decide +kernel

/-- TestBasicFilterRule -/
example : (execs { wconf with rules := [createBasicRule b!"foo" []] } (wstart wconf)
      (more b!"should be dropped" ++ one b!"foo bar")).map (fun s => (requests s, s.stats.received))
    = some ([(b!"foo bar", false)], 2) := by decide +kernel

/-- TestBatchedInput -/
example : (execs { wconf with rules := [createBasicRule b!"foo" []] } (wstart wconf)
      (one b!"should be dropped\nfoo bar")).map requests = some [(b!"foo bar", false)] := by decide +kernel

/-- TestRegexFilterRule, TestNegativeRegexFilterRule; the expressions are `bar$` and `dropped$` -/
example : (execs { wconf with rules := [createRegexRule (fun l => b!"bar".isSuffixOf l) []] } (wstart wconf)
      (more b!"should be dropped" ++ one b!"foo bar")).map requests = some [(b!"foo bar", false)] ∧
    (execs { wconf with rules := [createNegRegexRule (fun l => b!"dropped".isSuffixOf l) []] } (wstart wconf)
      (more b!"should be dropped" ++ one b!"foo bar")).map requests = some [(b!"foo bar", false)] := by decide +kernel

/-! ## retryworker_medium_test.go

The tests run the retry worker alone; here the batches come from the writer,
whose first request for each fails. -/

def rconf (n interval timeout : Int) : WConf := { wconf with retryBatches := n, retryInterval := interval * ms, retryTimeout := timeout * ms }

/-- A batch is handed to the retry worker. -/
def sendBatch (m : Bytes) : List WAct := [.recv m, .check, .write .transport, .handoff, .sent]

/-- The retries: body and time in milliseconds. -/
def retries (s : WSys) : List (Bytes × Int) := s.hist.filterMap fun
  | .attempt _ d t => some (d, t / ms)
  | _ => none

/-- The retries seen by the fake database, the reports of errors, and what is left. -/
def seen (c : WConf) (as : List WAct) : Option (List (Bytes × Int) × Nat × List RItem) :=
  (execs c (wstart c) as).map fun s => (retries s, s.errsCh + s.lostErrs, s.queue)

/-- The first test of the file: one batch, written once, no error -/
example : seen (rconf 1 100 30000) (.arm :: sendBatch b!"foo" ++ [.input, .arm, .tick (100 * ms), .fire, .finish (.status 200), .arm])
    = some ([(b!"foo", 100)], 0, []) := by decide +kernel

/-- A retry that fails, after the interval and a delay of a millisecond. -/
def failing (r : Resp) : List WAct := [.tick (251 * ms), .fire, .finish r, .arm]

/-- TestRetryWorkerTriesUntilTimeout: every 250ms for 1s gives three writes and three errors -/
example : seen (rconf 1 250 1000) (.arm :: sendBatch b!"foo" ++ [.input, .arm] ++ failing .transport ++ failing .transport
      ++ failing .transport ++ [.tick (251 * ms), .fire, .arm])
    = some ([(b!"foo", 251), (b!"foo", 502), (b!"foo", 753)], 3, []) := by decide +kernel

/-- A retry that succeeds. -/
def good (d : Int) : List WAct := [.tick (d * ms), .fire, .finish (.status 204), .arm]

/-- TestRetryWorkerMultipleBatches: in order, spaced by the interval -/
example : seen (rconf 3 250 2000) (.arm :: sendBatch b!"foo" ++ [.input, .arm] ++ sendBatch b!"bar" ++ [.input, .arm]
      ++ sendBatch b!"qaz" ++ [.input, .arm] ++ good 250 ++ good 250 ++ good 250)
    = some ([(b!"foo", 250), (b!"bar", 500), (b!"qaz", 750)], 0, []) := by decide +kernel

/-- TestRetryWorkerLimitsBatches: "foo" is dropped -/
example : seen (rconf 2 100 2000) (.arm :: sendBatch b!"foo" ++ [.input, .arm, .tick ms] ++ sendBatch b!"bar" ++ [.input, .arm, .tick ms]
      ++ sendBatch b!"qaz" ++ [.input, .arm] ++ good 100 ++ good 100)
    = some ([(b!"bar", 102), (b!"qaz", 202)], 0, []) := by decide +kernel

/-- TestRetryWorkerPermanentErrors: one write, one error, nothing left -/
example : seen (rconf 1 100 1000) (.arm :: sendBatch b!"foo" ++ [.input, .arm, .tick (100 * ms), .fire, .finish (.status 400), .arm])
    = some ([(b!"foo", 100)], 1, []) := by decide +kernel

/-- TestRetryWorkerMixedErrors: two writes, two errors, nothing left -/
example : seen (rconf 1 100 1000) (.arm :: sendBatch b!"foo" ++ [.input, .arm, .tick (100 * ms), .fire, .finish (.status 503), .arm,
      .tick (100 * ms), .fire, .finish (.status 400), .arm])
    = some ([(b!"foo", 100), (b!"foo", 200)], 2, []) := by decide +kernel

end Spout.Conformance
