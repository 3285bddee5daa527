# Formal model of jumptrading/influx-spout in Lean 4 — design

## 1. Approach

The Go source in `/repo` was read as text (it is not built or run).  Every
function that carries logic is transliterated into Lean as a total function
over lists of bytes, integers and plain structures; each definition cites the
file and lines it models.  Properties are then theorems about those
definitions, for all inputs / all histories.

* **Bytes** are `UInt8`, a byte slice is a `List UInt8`.
* **Panics** are explicit: index and slice expressions that Go checks at run
  time go through `Go α` (`ok a | panic`), so "never crashes" is a theorem and
  a crash is a value that can be exhibited.
* **Fixed width integers**: `int64` values are `Int` with every arithmetic
  operation followed by an explicit wrap to `[-2^63, 2^63)`; `uint64` is `Nat`
  modulo `2^64`; hashes are `UInt32`.  `int` used as a length or count is an
  unbounded `Nat`/`Int` (a buffer of 2^63 bytes cannot exist).
* **Aliasing** is modelled where it is observable: the tags of a parsed line
  are views (offset, length) into the line buffer that `SortTags` overwrites,
  and a parsed metric's name/labels are views into the received message that
  `Metric.ToBytes` overwrites.  Elsewhere slices are immutable values.
* **Loops** are structural or well-founded recursion (no fuel unless stated).
* **Goroutines**: a component is a state machine whose events are the cases of
  its `select`/its lock-protected regions; a schedule is an arbitrary list of
  events; the clock reading of each event is part of the event.
* **External code** is a parameter: the regular expression engine is an
  arbitrary predicate on byte strings; `strconv.ParseFloat`/`AppendFloat` and
  float arithmetic are arbitrary functions (`FloatOps`), except in C103–C105 and in Conformance, where they are
  IEEE-754 binary64 and decimal conversion as modelled in `Model/Float64` (hexadecimal and underscore
  literals stay an arbitrary function `other`); NATS publish and InfluxDB write
  outcomes are arbitrary values in the event; `sort.Sort`/`sort.Slice` is any
  function that returns a sorted permutation; Go map iteration order is any
  permutation.

## 2. Layout

* `lean/Verif/Go.lean` — run-time vocabulary (bytes, `Go`, slices, wrap, `bytes.Split*`).
* `lean/Verif/Model/*.lean` — the model, one file per Go package.
* `lean/Verif/Spec/*.lean` — small independent specifications.
* `lean/Verif/Lemmas/*.lean` — helper lemmas.
* `lean/Verif/Props/*.lean` — property theorems (named `C01_…`) with, beside each, an
  `example` showing a non-trivial instance satisfying its hypotheses.
* `lean/Verif/Conformance/*.lean` — the project's own unit, component and end-to-end tests
  (`*_test.go`), run on the model; not proofs of properties but evidence that the model is
  faithful, see §6.
* `properties.jsonl`, `MANIFEST.json`, `seeded/LOG.jsonl` (mutation log).

## 3. Properties, what is modelled, and how each is proved

| id | model | proof |
|----|-------|-------|
| C01–C03 | `batchsplitter.Next` as `next : Splitter → Go (Splitter × Bool)` with the backwards scan | induction on remaining length; C02 is false (off by one) — refuted by witness, bound `chunkSize+1` proved |
| C04, C05 | `convert.ToInt` with uint64 wrap | digit-fold invariants; C04 false for ≥20-digit input — refuted, `_partial` for ≤19 digits and exact modular characterisation |
| C06 | `ExtractTimestamp`, `ExtractNanos` index loops | loop invariant: last space in window; exact characterisation |
| C07 | `SafeCalcTime` with int64 wrap | integer arithmetic |
| C08 | `applyTimestampPrecision` | from C05–C07 |
| C09–C11 | `Escape*`, `Unescape`, `QuotedString` index loops | refinement to list recursion, induction; exact iff conditions |
| C12 | `token` index loop | loop invariant |
| C13 | `ParseTags`, `TagSet.Bytes` | token lemma + induction on the tag list |
| C14 | all parsers in the `Go` panic monad | totality theorems |
| C15 | `LookupParsed` over rule closures | induction |
| C16, C22 | `worker` as a state machine | invariants over message histories |
| C17 | `extractTimestamp` + window test | false in general (timestamp −1, short timestamps): refuted; exact behaviour + `_partial` |
| C18 | FNV‑1 32 bit | false (collision `creamwove`/`quists`): refuted; completeness proved |
| C19 | `SubsetOf` | loop invariant |
| C20 | aliasing model of `SortTags` | false: refuted; proved for lines whose tags do not alias / are already sorted |
| C21 | `SortTags` three paths | C13 + permutation lemmas; false for lines without fields ending in newline: refuted |
| C23 | regex as predicate | direct, including the lazy cache |
| C24–C27 | `assigner` with an abstract bucket | invariants over histories |
| C28, C29 | `intFieldValue.update` with wrap | invariants; C29 false (exact mean): refuted, error bound `(n-1)/2` proved |
| C30–C33 | `avgBucket` with maps as association lists | C32 false: refuted, `_partial` for new series |
| C34–C36 | writer worker loop | invariants over event lists |
| C37–C42 | `retryQueue`, `retryWorker.loop` | invariants over event lists with history |
| C43, C44 | writer + retry worker | false: refuted; bounds proved |
| C45 | two-process transition system | case analysis on every reachable state |
| C46, C47 | `Batch` with capacity | invariants over op lists |
| C48–C52 | listener state machines | invariants; C50, C51 false: refuted; `_partial` |
| C53–C57 | prometheus package and monitor | round trip by induction; map refinement; C56, C57 false: refuted with exact conditions |
| C58–C60 | stats counters as an interleaving transition system | invariants over all interleavings |
| C61–C63 | config decision logic | case analysis (exact iff) |
| C64 | probes | refinement |
| C65 | composition of listener, filter, (several filter workers) and writer models over subjects | corollary of C16, C34, C48; permutation/sublist lemmas for several workers |
| C66 | counters inside the listener state machine | invariants over histories |
| C67 | `roundUpToPageSize` | integer arithmetic |
| C68 | downsampler worker state machine (windows, splitter, counters) | refinement to a specification of the whole stream |
| C69 | writer clocked system `WStep` (batch age ticker) | invariants over timed histories |
| C70 | writer + batch splitter | from C01–C03 |
| C71 | retry worker timing | invariant over timed histories |
| C72, C74 | statisticians, `stats/prometheus.go`, monitor | composition with the C53/C54 round trips |
| C73 | `stats.New`/`lookup` | list lemmas |
| C75 | `RuleSetFromConfig` | induction over the configured rules |
| C76–C81 | start/stop of every component and `runComponent` as lists of operations with arbitrary failures, run against a scheduler with all goroutines | invariants over `Reach`; WF checks per component; refutations by explicit schedules |
| C82 | the tap's `process`, `fmt.Printf` as an arbitrary function with three documented behaviours | induction on messages; `%` refuted |
| C83 | `newInfluxClient`, `Write`; query strings read back by an independent specification of `net/url` parsing | exact characterisation of the database names that work; outcome by cases |
| C84 | the HTTP handler's reading of a body and its answer | from C48–C50's runs; refuted by a 64 KiB line |
| C85 | `updateNATSDropped` and the statisticians over many rounds | induction on rounds on top of C74 |
| C86 | callbacks, channel of 1024 and workers under any schedule | invariant with ghost order; permutation; explicit blocked schedule |
| C87 | `WStep` runs | case analysis of steps |
| C88 | listeners (UDP, HTTP), filter workers, writer workers and both queues (`Pool`) composed (Props/System); then the transition system of a whole deployment with NATS in between (Model/Deployment) | permutations: C86 for the queues, C48–C51 for listeners, C16 for filter workers, C34 for writers; an invariant of the deployment (Props/DeploymentInv) says that every reachable state is such a composition |
| C89 | listener model; specification automaton `Spec/Batching.lean` (writes, checks, limits) | simulation of both loops by the automaton; age invariant of the automaton |
| C90 | the system of C88 with the downsampler worker of C68 and the archive writer, queues as in C86 | the messages of the filter are lifted to lists of measurements (permutation lifting); a legal downsampler history without errors hands exactly these to the windows (induction on the history); for every reachable state of a deployment by the invariant of C88 |
| C91 | `Model/Threads.lean`: goroutines with reads, writes, mutexes, atomics and starts, under any schedule; `Model/Sharing.lean`: the programs of all components; specification `Spec/HappensBefore.lean` | a checked discipline (guarded, written before publication, atomic, owned) implies, by an invariant on who knows of which access, that conflicting accesses are ordered; the check of each program is evaluated by the kernel. What is handed over through channels: `Model/Handover.lean`, `Spec/Handover.lean`; a checked discipline (nothing is used after it was sent) implies, by an invariant on who owns which block of bytes, that conflicting accesses are ordered |
| C92 | `Batch` (capacity and growth), the listeners, the writer system | each operation grows a buffer only if it is too small, hence at most to twice what it then holds plus 128 KiB; invariants over the runs of each component |
| C93 | the lifecycle programs (Model/Lifecycle) | case analysis of a step; what the caller has executed in each phase is an invariant (`Shape`), so a running component has executed all of its start |
| C94 | `findProblems` and the exit status over the texts benchstat shows (Model/Benchcheck); float64 parsing and comparison abstract, with laws for two-decimal numbers | induction over rows and tables |
| C95 | the transition system of Model/Deployment; `Running`, `Acyclic`, `Finished`, `Fine`, `InTime` in Props/DeploymentCan, Props/GroupCan, Props/WriterCan | measure in front of the workers, then component by component (listeners, filters, downsamplers, writers), each stage leaving earlier ones untouched; frames by acyclic subjects |
| C96 | processBatch, SortTags; `IsLine`, `StaysOneLine`, `SortedOrFields` in Props/FilterIsolation | counterexample by evaluation; bytes of the parsed parts are bytes of the header, so the newline stays last; published texts against outcomes |
| C97 | Model/Deployment with `Change` (processes start, join a queue group, crash); crashed processes are kept as ghosts with what they held | the invariant of C88 ranges over running and crashed processes; C95's run leaves the crashed ones and the dropped messages as they are, so the balance of C88 at its end names exactly what was lost |
| C98 | Model/Deployment; writers subscribed to the listeners' subject | the invariant of C88 with no filter in between: published = received ++ on the way, lines of listener messages = lines sent; C95's run for the liveness part |
| C99 | Model/Deployment with the counters of Model/Filter, Writer, Downsampler | C22, C44 and C68 for each worker, summed; the balance of lines of C98 between listeners and filters; C95's run for the end |
| C100 | Model/Writer with the clock; a spec of the runs after the outage (`Answered`) | invariant: the place of the chunk in the queue bounds the time it has left, through every step of worker and retry worker |
| C101 | Model/Deployment; infinite schedules as functions of time, `NoInput`, `SameWork` (what is left to do and what has been published) as a spec | a lexicographic measure over six kinds of work decreases in every step that changes anything (well-founded order, no fairness assumed); fairness and C88 then give completion and delivery |
| C102 | Model/Deployment; `State.Complete` (nothing left to do, no downsampler holds a measurement), `FairArchive`, `Archived` as a spec | C101's measure counts windows; time-outs at the end of the current window empty them; C90 with empty windows puts every measurement into an emitted one; a concrete deployment run by an executor proved sound (`dAct_sound`) meets all hypotheses |
| C103 | IEEE-754 binary64 numbers with rounding to nearest, `strconv.ParseFloat` and `AppendFloat` from their documentation (Model/Float64); the value of a float64 and the mean as rationals (Spec/Float) | rounding is monotone and exact on float64, so each step stays between the average and the sample; induction over the samples; the overflow is evaluated by the kernel |
| C104 | the same | relative error 2^-53 of each operation (or half a unit below the normal range), induction over the samples with the sum of the samples as invariant |
| C105 | the same; numerals as a relation between texts and rationals (Spec/Float) | rounding error against any other float64, ties; seventeen digits determine a float64, so the shortest-digit search succeeds and its result reads back |
| C106 | `Model/Deployment` with the additional assumption that NATS keeps the order of a subscription (`InOrder`) | a concrete schedule refutes it for two filter workers; for one, an invariant: received ++ queued ++ pending is an ordered part of what was published; for any number of workers (`Props/OrderingMessages`), from C16 and the accounting of C88: parts, one per listener message |
| C107 | `Model/Backlog`: the list of a subscription in the NATS client with its limits and counters (nats.go v1.10.0, as an assumption), in front of `Model/Pool` | invariant: what the client counts is what waits; induction over schedules; refinement to `Model/Pool` |
| C108 | `Model/ConfigText`: `time.ParseDuration` (with its float64 arithmetic, on `Model/Float64`) and `ByteSize.UnmarshalText`, written down from the pinned versions of the libraries; non-ASCII trimming and longer names of units are parameters | `Spec/ConfigText` says what a text stands for, as a rational number of nanoseconds or a number of bytes; error analysis of the float64 product in `Lemmas/DurationFloat`; induction over the parts |
| C109 | the pipeline of C65 (listener, filter, writer workers) with time bounds for each hop as hypotheses | the delay bounds of C89 and C69 are composed through the routing of C16; each received message is shown to be in a batch that was sent, by induction over the history; `C109_window` also bounds the time from below: the bytes of the datagram lie behind everything published before it, so they are in a message published by it or a later iteration |
| C110 | the writer worker of C34-C42; `Spec/Store`: InfluxDB as last value per key, `Handled` the ways in which requests may have been handled; the reading of a line is a parameter | histories: every handled line is a line of a first write (C42), hence received (C34, C70); induction over `Handled`; runs refute the full claim |
| C111 | the pipeline of C65 with the store of C110 for each worker | the messages received are permuted groups of the texts sent (C65); each line of them was handled (C110) and nothing else was; consistency makes the order irrelevant; for deployments (Props/DeploymentStore), the same from the invariant of C88 with the texts grouped by message |
| C112 | `Model/Setup.lean`: what each component takes from its configuration, and the start of all processes; `newConfigFromFile` and the deployment of C88 | every process that is or was running has the settings of an accepted file (`Deployed`, kept by all steps); the hypotheses of C88, C101 and C111 about subjects and sizes follow from the files (C61, C63), and the routing of a line from C75 |
| C113 | the settings of `Model/Setup.lean` and the deployment of C88 | the invariant of deployments gives each worker a run of its own model with the settings of an accepted file, so that C89, C17, C35, C37, C39 and C41 apply; C63 says which keys these settings are |
| C114 | the files of C112 with the archive of C102 | the files' separation of subjects gives that of C102, the texts for a downsampler are the lines that the filter's file sends to its subject; for a negative period an invariant says that the assigner's window never contains a time |
| C115 | the files of C112 with the writer of C98 | the files' separation of subjects gives that of C98; what the writer should write is what its file's rules accept of all lines |
| C116 | the deployments of C95-C101 and the files of C112, with schedules in which a filter's output comes back to the filters | a line that goes back is, counted with multiplicity, always with the filters or on the way to them (balance of the counters' proof); things settle as long as no filter processes a message, so a fair schedule must process messages for ever; the property as stated is refuted by it, the rest is C101 in terms of the files |
| C117 | chains of the downsamplers of the deployments (C90, C102): what one publishes is what the next reads | what a worker emits is again the text of well-formed measurements (the aggregated values are fields that can be read again, floats are printed plainly: `C117_binary64_plain`), so C90's argument applies at each level, by induction over the chain; the shift of the windows by arithmetic; the property as stated is refuted by a run of a chain of two |
| C118 | the downsampler worker of C24–C27/C68 and its clock readings (`Spec/OnTime.lean`: steady clock, punctual worker) | induction over the legal histories: on a steady clock the end of the oldest tracked window is never after the last look; a punctual worker's middle window is that of the last look; the conditions are shown necessary by two runs |
| C119 | the worker of C118 and the deployments of C102; `Spec/Kinds.lean` says what kind a value is | invariant: every bucket holds lines of the consistent set, so adding another of them meets no mismatch; the counters of a quiet deployment are then those C118 gives, and C102's archive theorem applies without a hypothesis on the counters |
| C120 | the worker of C25–C33, the float64 of C103–C105 and the chains of C117 | the kind of an aggregated value is the kind of its samples (integers by the range of the running mean and C05, floats because what is printed for every float64 is read as a float again, C105); an invariant of the worker, and induction on the length of the chain, with no hypothesis on failures or losses; writers by C70; with C118 the counters of C117 vanish |
| C121 | the start of all processes from accepted files (C112), the chains of C117 and the schemas of C120 | `Levels` reads periods and subjects off the files; distinct archive subjects make the chain of downsamplers at the start, and no step changes the subjects, periods and number of the processes, so the chain is there in every later state; then C120, the rules of the files (C112, C115) and termination of every fair schedule (C102) |
| C122 | the archives of C117/C120 and the storage semantics of C110/C111 | `Reading` specifies how a database reads a measurement's fields; a level emits at most one line per series and time and each field once, so the archive is consistent and the stored content does not depend on the order or repetition of writes; then C120 (what was sent) and the content theorem of C111, also for fair schedules and from files |
| C123 | the downsampler worker of C68/C118 and the writer workers of C69/C109, no new model | the first look at the clock at least a period after the end of a window comes less than two periods after it (Punctual); the history up to it is again in time, so no error is counted (C118, C119) and the window's emission (C26, C68) is the summary of the measurements so far; later measurements are too young for the window; then C109's bound for the writer |
| C124 | `Assigner.untilNext` (the argument of time.After) together with the worker of C68 | by induction on the iterations: the tracked windows are those around the last look for output (C118), so the timer fires at the end of the current one, and less than a period later is before the end of the next one; then C118 and C123 |
| C125 | the timed HTTP listener of C52 (`TStep`), filter and writer of C109 | runs are lists of states (`HRun`), so that the moment of publishing is one of the run; every step keeps the batch as a prefix of the next one and its age, or hands all of it to NATS without time passing; the age bound of C52 rules out the first alternative after batch_max_age + 2 D; then the filter and writer steps of C109, with a lower bound on the time of sending as well |
| C126 | the UDP listener of C89, the filter of C16, the downsampler worker of C124 | invariant over the iterations of the listener: what is collected was read in order and none of it was due when the clock was last looked at; each published line is traced back through the groups of C16 to a datagram; then C124 and C123 |
| C127 | the loop of the statisticians in time (`Model/StatLoop.lean`), the monitor of C72 | invariants over the loop: the timer is set `stats_interval` after the last round, rounds are in order and show the counters of their moment, counters only grow; the last snapshot received is the latest of its series (C72) as no other component has the same labels |
| C128 | the runs of the timed HTTP listener of C125 (`HRun`), filter, downsampler of C126 | what waits is a list of what was posted, with times not before the batch's age is counted from; the age bound of C52 at the step that sends; the lines of a message are lines of one posting because all are complete; then as C126 |
| C129 | the listeners of C89/C126 and C128, the worker of C69/C109, the downsampler of C123 | UDP: the batches sent and the data waiting split the datagrams in two, and what waits was young at the last look; the others from the bounds of C128, C109 and C123 at the moment of the crash |
| C130 | the pipelines of C126 and C128 up to the writer's worker (`WStep`, `Prompt`) | a batch is the concatenation of what was pending when it was sent (C35), what is pending was received, not later and by C69 not long before; the filter's and listener's messages are traced back as in C126/C128. every request is shown by an invariant to be part of a batch begun before; retries are bounded from the time of queueing (C39, C71) |
| C131+ | see `properties.jsonl`; each later property names its model file in its theorem's file | as stated there |

### Properties that are false of the code

A property is kept in `properties.jsonl` as documented or as a user would expect it, even if
the code violates it.  Then one theorem exhibits the violation (an execution of the model) and
another, with suffix `_partial`, proves the part that holds, as far as possible with an exact
characterisation (*iff*) of when it does:

| id | violation found |
|----|-----------------|
| C02, C51 | `BatchSplitter.Next` can return a chunk of `chunkSize+1` bytes |
| C04 | `convert.ToInt` accumulates in `uint64`, which wraps for 20 or more digits |
| C17 | `filter.extractTimestamp` does not see timestamps of lines of at most 24 bytes, short timestamps, and −1 |
| C18 | basic rules compare 32-bit FNV-1 hashes; `creamwove` and `quists` collide |
| C20 | `SortTags` writes into the buffer that the parsed tags alias |
| C21 | sorting the tags of a line without fields moves its newline; values ending in a double backslash before a quote change |
| C28 | the integer average wraps if samples differ by 2^63 or more |
| C29 | the incremental integer average truncates: 0, 1, 2 is emitted as 0 |
| C30, C31 | the kind of the first sample decides the output format; a quoted integer is accepted for an integer field |
| C32 | fields read before the error in an invalid line are kept |
| C43 | a batch rejected with 4xx is still handed to the retry worker once |
| C44 | `write_requests` counts batches, not requests |
| C50 | HTTP bodies without trailing newline are merged with the next body |
| C52 | the listener's lock is held while a request body is read |
| C54, C57 | rendering a metric with unsorted labels overwrites the memory it was parsed from |
| C55, C56 | `foo{a="b"}` (and other lines, exactly characterised) panics the monitor |
| C62 | tags of writer rules are not validated; `RuleSetFromConfig` can index out of range |
| C63 | rules of the two configuration files mix (TOML decoder reuses slice elements) |
| C76 | a negative number of workers panics the writer |
| C79 | a listener that fails to start leaks the probe port or the UDP socket |
| C82 | the tap prints lines through `fmt.Printf`, so `%` is garbled |
| C83 | the database name is not URL-escaped: `# % & + ;` name another database or none |
| C84 | the HTTP listener answers 204 although the body (or its rest) was lost |
| C86 | after Stop a NATS callback can stay blocked for ever on the full queue |
| C92 | the HTTP listener's buffer grows with the largest body (or burst of bodies) and is never given back |
| C91 | the writer reuses its batch after `http.Client.Do` returns, when net/http may still be sending it |
| C80 | listeners and monitor can report ready after Stop or before the port is bound; the filter does not flush its subscription |

## 4. What is modelled and what is not

| Go file | modelled | not modelled |
|---------|----------|--------------|
| `convert/convert.go` | all | error texts |
| `batchsplitter/batch_splitter.go` | all | |
| `batch/batch.go` | all (capacity growth as explicit capacity) | allocation failure |
| `influx/*.go` | all | |
| `filter/rules.go` | all; regular expressions are arbitrary predicates | syntax of regular expressions |
| `filter/worker.go` | all; NATS publish results are arbitrary | log texts |
| `filter/filter.go` | start, stop, statistician, pending limits | |
| `downsampler/*.go` | all; float parsing, arithmetic and printing are arbitrary functions, or float64 as in Model/Float64 | error texts |
| `writer/writer.go`, `retryworker.go` | all; the clock, ticks and InfluxDB's answers are arbitrary | log texts |
| `writer/influxclient.go` | classification of answers, request built from the configuration | `net/http` |
| `listener/listener.go` | all; the datagrams, bodies, read errors, clock are arbitrary | `net`, `net/http` servers |
| `monitor/monitor.go`, `prometheus/*.go` | all, with aliasing of message memory | HTTP server |
| `stats/*.go` | all, as interleaved atomic steps | hostname lookup |
| `probes/probes.go` | all | HTTP server |
| `config/*.go` | defaults, overlay of two decoded files, validation, name from path | TOML syntax (the texts of durations and sizes are modelled in `Model/ConfigText`, C108) |
| `cmd/influx-spout/main.go` | `runComponent` | usage text |
| `cmd/influx-spout-tap` | `process` | flags, NATS connection |
| `cmd/benchcheck` | all but the comparison itself (`benchparse`) | usage text |
| `cmd/slowinfluxd`, `spouttest` | – | test tools |

NATS is modelled as: a publish succeeds or fails (arbitrary); a message published on a
subject may be delivered to each subscriber in order.  In the deployments of C88 and C90
(`Model/Deployment.lean`) delivery is weaker still: each published message is, for every
subscription outside queue groups and for every queue group, passed to the callback of (one of)
them at most once, in any order and at any later time, or dropped.  A component publishes the
messages of one batch in one step; processes may start, subscribe and crash at any time (C97). (One step, as they may be delivered at any later time, nothing else
could be observed).  Pending limits are modelled in `Model/Backlog` (C107) only; reconnection is not modelled, nor are pprof, logging, the operating system, memory
exhaustion and Go's garbage collector.  The Go memory model is used as sequential consistency
for the atomic operations in `stats`; that the components have no data races, so that the
other models may treat their steps as atomic, is C91 (with ordering by starts of goroutines and
mutexes for shared variables, and by channels for the bytes of messages and retried chunks).

## 5. Trusted base

* Lean 4.33.0's kernel (the proofs are replayed by `vcheck`).
* Axioms: every theorem depends on a subset of `propext`, `Classical.choice`, `Quot.sound`;
  the exact set for each theorem is listed in `AXIOMS.txt` (printed by `tools/axioms.lean.txt`).
  No axioms of our own, no compiled evaluation.
* The reading of the Go source that the citations in the model document, and of the standard
  library functions named there (`bytes.SplitAfter`, `bufio.Scanner`, `sort`, `strconv`, `fmt`).
* For C103–C105: that Go's `float64` operations and `strconv` are as in `Model/Float64` (IEEE-754, roundTiesToEven, written
  from the documentation; their source is not in /repo).
* The meaning of the statements: the files in `lean/Verif/Spec` and the definitions that
  precede each theorem in `lean/Verif/Props`.

## 6. How the theorems were tested

`tools/mutate.py` applies hand-written wrong programs (`seeded/mutants/*.json`) to a scratch
copy, and `seeded/LOG.jsonl` records for each the proofs that failed, the theorems Cnn that rest
on them (dependency graph of the kernel terms, `tools/deps.lean.txt`) and the theorems tightened.
`tools/automutate.py` edits every comparison, constant, connective, update and branch of the
model mechanically and reports the edits that no proof notices (in a copy without the
`example`s and without `Conformance`, so that only theorems count).

The model itself was tested against the project's tests: `lean/Verif/Conformance` contains the
vectors of `convert`, `influx`, `filter`, `batchsplitter`, `batch`, `prometheus`, `stats`,
`monitor`, `downsampler`, `config`, `writer` (with the schedules of the retry tests written
down as actions, `exec_sound` showing that each is a step of the model), `listener`, `probes`
and of `cmd/influx-spout/e2e_large_test.go`, where the whole pipeline of models, configured by
the model of `config`, gives the databases and the metrics page that the test expects.  Left out
are benchmarks and the texts of TOML files.
