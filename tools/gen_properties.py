import json
P=[]
def p(id,title,statement,quantifier,why,anchors):
    P.append(dict(id=id,title=title,statement=statement,quantifier=quantifier,why_tests_cant=why,anchors=anchors))
# --- splitter
p("C01","Splitting a batch loses, duplicates and reorders nothing",
 "For any byte buffer and any chunk size of at least 1, iterating Next/Chunk to exhaustion terminates without a panic and the chunks, concatenated in the order they were returned, are exactly the buffer; no returned chunk is empty.",
 "every byte buffer, every chunk size >= 1, every number of Next calls",
 "A test fixes a handful of buffers; the claim is about every placement of newlines relative to the chunk boundary and every buffer length.",
 ["batchsplitter/batch_splitter.go: New, Next, Chunk"])
p("C02","Chunk size limit",
 "Under no circumstances is a chunk larger than the configured chunk size returned (doc comment of New).",
 "every byte buffer and every chunk size >= 1",
 "The limit must hold for every alignment of newlines; the shipped tests miss the one alignment (newline exactly at index chunkSize) at which it fails.",
 ["batchsplitter/batch_splitter.go: New, Next"])
p("C03","Chunks end on line boundaries and are maximal",
 "Every chunk but the last either ends with a newline or consists of exactly chunkSize bytes of one line that has no newline in its next chunkSize+1 bytes; a buffer all of whose lines fit in a chunk is never cut inside a line; and a chunk could not have been extended to a later newline within the limit.",
 "every byte buffer and every chunk size >= 1",
 "Requires reasoning about the position of every newline in unbounded buffers.",
 ["batchsplitter/batch_splitter.go: Next"])
# --- numbers
p("C04","Integer text is parsed to its exact value or rejected",
 "convert.ToInt accepts exactly the optional-minus decimal strings whose value fits in int64 and returns that value; every other byte string is rejected with an error.",
 "every byte string",
 "The input space is unbounded and the arithmetic wraps modulo 2^64 for long digit strings.",
 ["convert/convert.go: ToInt"])
p("C05","Every int64 survives printing and re-parsing",
 "For every int64 n, parsing the decimal text the program prints for n gives back n.",
 "all 2^64 int64 values",
 "2^64 values including the minimum, whose negation overflows.",
 ["convert/convert.go: ToInt","listener/listener.go: applyTimestampPrecision","downsampler/avgbucket.go: intFieldValue.bytes"])
p("C06","A trailing timestamp is found exactly when there is one",
 "On a line '<anything> <ts>' with an optional trailing newline, timestamp extraction returns the value of ts and the offset of its first byte whenever ts is a decimal int64 of at most 19 characters (and the line has at least 6 bytes); when the text after the last space is not such a number it reports that there is none. It never panics.",
 "every byte string",
 "Depends on line length, position of spaces and the 19-character window.",
 ["influx/timestamps.go: ExtractTimestamp, ExtractNanos"])
p("C07","Timestamp scaling is exact or rejected, never wrapped",
 "SafeCalcTime(ts, precision) succeeds exactly when ts multiplied by the precision's nanoseconds, as a mathematical integer, lies in the representable range, and then returns exactly that product.",
 "every int64 timestamp and every precision string",
 "Overflow detection over all 2^64 timestamps and six multipliers.",
 ["influx/timestamps.go: SafeCalcTime, safeSignedMult, getPrecisionMultiplier"])
p("C08","HTTP precision conversion changes the timestamp and nothing else",
 "A line posted with ?precision=p is stored with the same bytes before the timestamp and a timestamp equal to the original times the unit, newline terminated; a line without a recognisable or scalable timestamp is stored unchanged.",
 "every line and every precision string",
 "All line contents and timestamps.",
 ["listener/listener.go: applyTimestampPrecision","influx/timestamps.go: ExtractTimestamp, SafeCalcTime"])
# --- escaping
p("C09","Tag escaping is reversible",
 "Unescape(EscapeTagPart(x)) = x exactly for the byte strings x that do not contain a backslash immediately followed by a double quote.",
 "every byte string",
 "All sequences of backslashes and special characters.",
 ["influx/escape.go: EscapeTagPart, Escape","influx/unescape.go: Unescape"])
p("C10","Measurement escaping is reversible",
 "Unescape(EscapeMeasurement(x)) = x exactly for the byte strings x that contain neither backslash-quote nor backslash-equals.",
 "every byte string","All sequences of backslashes and special characters.",
 ["influx/escape.go: EscapeMeasurement, Escape","influx/unescape.go: Unescape"])
p("C11","String field values survive re-encoding",
 "Reading back an encoded string field (EscapeQuotedString then QuotedString, with any text following) returns the original value and exactly the following text, for exactly the values that do not end in a backslash and do not contain both a double quote and a backslash followed by comma, space or equals.",
 "every byte string value and every following text",
 "All sequences of quotes and backslashes, and all continuations.",
 ["influx/escape.go: EscapeQuotedString","influx/token.go: QuotedString","influx/unescape.go: Unescape"])
p("C12","Tokenising splits a line without losing bytes, at the first unescaped delimiter",
 "Token/TokenEscaped cut the input into a prefix and a remainder whose concatenation is the input; the remainder is empty or starts with a delimiter that is not preceded by a backslash; no earlier byte after the first is such a delimiter. Token additionally unescapes the prefix.",
 "every byte string and every delimiter set",
 "All inputs and delimiter sets, including escapes at either end.",
 ["influx/token.go: token, Token, TokenEscaped"])
p("C13","Parsing inverts serialisation of measurement and tags",
 "For every measurement name and tag list that can be written in escaped form (no part empty or ending in a backslash, no backslash before a quote, ...), ParseTags applied to the serialised header followed by a space and any text returns that measurement, those tags in order and that text.",
 "every well-formed measurement, tag list of any length, and trailing text",
 "Unbounded number of tags and all byte contents.",
 ["influx/tags.go: ParseTags, TagSet.Bytes","influx/escape.go"])
p("C14","No input line can crash the line parsers",
 "Tokenising, tag parsing, timestamp extraction, quoted-string parsing, unescaping and field parsing never index out of range on any byte string.",
 "every byte string",
 "Fuzzing samples; the index arithmetic must be safe for all lengths and contents.",
 ["influx/token.go","influx/tags.go: ParseTags","influx/timestamps.go","influx/unescape.go","downsampler/avgbucket.go: AddLine, update"])
# --- filter
p("C15","A line goes to the first matching rule, and only there",
 "Lookup returns index i exactly when rule i matches the line and no earlier rule does, and reports no match exactly when no rule matches (or the line's tags cannot be parsed).",
 "every rule list and every line",
 "All rule orders, rule kinds and lines.",
 ["filter/rules.go: Lookup, LookupParsed, RuleSetFromConfig"])
p("C16","The filter forwards every admissible line exactly once, in order",
 "For one incoming message, each rule's subject receives, in at most one publish per rule, exactly the (tag-sorted) lines of the message that are in the time window, parse, and first-match that rule, in their original order; the junk subject receives exactly those that match no rule; nothing else is published and nothing is carried over to the next message, whether or not a publish fails.",
 "every message, rule set, clock value, publish outcome and history of earlier messages",
 "All batches and histories; buffers are reused across messages.",
 ["filter/worker.go: processBatch, processLine, sendOff, publish"])
p("C17","Lines outside the time window are not forwarded",
 "No line whose timestamp differs from the filter's clock by max_time_delta or more is forwarded; lines within the window or without timestamp are.",
 "every line, clock value and max_time_delta",
 "All timestamps incl. sentinel values, all line lengths.",
 ["filter/worker.go: processBatch, extractTimestamp","influx/timestamps.go: ExtractNanos"])
p("C18","Basic rules match the measurement name exactly",
 "A basic rule matches a line if and only if the line's unescaped measurement name equals the configured name (README).",
 "every measurement name and line",
 "Matching compares 32-bit hashes; a collision needs a search over names.",
 ["filter/rules.go: CreateBasicRule, hashMeasurement"])
p("C19","Tags rules match exactly when all their tags are present",
 "A tags rule matches parsed tags iff every configured key/value pair occurs among them, regardless of order, extra tags and repetitions.",
 "every pair of tag lists",
 "All sizes, orders and duplicates.",
 ["influx/tags.go: SubsetOf","filter/rules.go: CreateTagRule"])
p("C20","Tag-rule routing in the filter does not depend on the order of tags in the incoming line",
 "Two lines that differ only in the order of their tags are routed to the same subject by the filter.",
 "every rule set and every pair of lines that are tag permutations of each other",
 "The defect depends on memory aliasing between the parsed tags and the line buffer that is overwritten while sorting.",
 ["filter/rules.go: SortTags, CreateTagRule","filter/worker.go: processLine","release-notes.md: filter: New tags rule type"])
p("C21","Tag sorting canonicalises a line without changing its meaning",
 "After sorting, the emitted line has the same measurement, the same tags (as a multiset) in ascending key order and the same fields and timestamp; a line whose tags are already in order is emitted byte for byte unchanged.",
 "every line that parses",
 "All tag counts, contents, escapings and line lengths (three code paths).",
 ["filter/rules.go: SortTags","influx/tags.go: Less, Bytes"])
p("C22","The filter's counters account for every line",
 "Over any history, processed = passed + rejected + invalid_time + (lines whose tags do not parse), passed equals the sum of the per-rule triggered counters, and failed_nats_publish equals the number of failed publishes.",
 "every history of messages and publish outcomes",
 "All histories.",
 ["filter/worker.go","filter/filter.go: initStats"])
p("C23","regex and negregex rules are complementary and see the unescaped line",
 "For every regular expression, a regex rule and a negregex rule with the same pattern match complementary sets of lines, decided by the whole unescaped (and, in the filter, tag-sorted) line.",
 "every regular-expression predicate and line",
 "All patterns and lines; the unescaped text is cached lazily.",
 ["filter/rules.go: CreateRegexRule, CreateNegativeRegexRule, Unescaped"])
# --- downsampler
p("C24","Sampling periods tile time",
 "At every moment the downsampler's three windows are adjacent, one period wide and aligned to multiples of the period; a line accepted with timestamp ts is aggregated into the single window [end-period, end) that contains ts.",
 "every period > 0, start time, clock history and sequence of updates and emissions",
 "All histories of clock readings and calls.",
 ["downsampler/assigner.go: newAssigner, Update, Bytes, findBucket, nextT, prevT"])
p("C25","Lines are rejected exactly when outside the tracked windows",
 "A line is reported as a timestamp error iff its timestamp is older than the start of the oldest window or not before the end of the newest; lines without timestamp use the current time.",
 "every reachable state and line",
 "All states and timestamps.",
 ["downsampler/assigner.go: findBucket, extractTimestamp, Update"])
p("C26","A window is emitted once, in order, and not before a full period of grace",
 "Windows are emitted in strictly increasing order of end time with none skipped and none twice, each only when the clock has reached the end of the following window.",
 "every history of clock readings and calls",
 "All schedules, including clock jumps.",
 ["downsampler/assigner.go: Bytes, UntilNext","downsampler/downsampler.go: worker"])
p("C27","Every accepted line is in exactly one window and is emitted with it",
 "At any point the lines accepted so far are partitioned, in arrival order per window, among the windows already emitted and the three pending ones.",
 "every history",
 "All histories.",
 ["downsampler/assigner.go: Update, Bytes"])
p("C28","Integer averages stay within the range of the samples",
 "The value emitted for an integer field lies between the smallest and the largest sample of the period.",
 "every sequence of int64 samples",
 "Int64 subtraction can wrap; all sequences.",
 ["downsampler/avgbucket.go: intFieldValue.update"])
p("C29","Integer fields are averaged",
 "The value emitted for an integer field is the mean of the samples, rounded to an integer (README: integer fields are averaged over each sampling period).",
 "every sequence of int64 samples",
 "Rounding errors of the incremental formula accumulate with the number of samples.",
 ["downsampler/avgbucket.go: intFieldValue.update"])
p("C30","String and boolean fields emit the latest value",
 "For a field whose first value in the period is a quoted string or an unparsed token, the emitted value is that of the last accepted sample.",
 "every sequence of samples","All sequences.",
 ["downsampler/avgbucket.go: stringFieldValue, rawFieldValue"])
p("C31","The first value fixes a field's type; mismatching samples are reported and ignored",
 "Once a field holds an integer, a non-integer sample produces an error and leaves its average and count unchanged (likewise for floats).",
 "every field state and sample","All values.",
 ["downsampler/avgbucket.go: intFieldValue.update, floatFieldValue.update, newFieldValue"])
p("C32","A line reported as invalid does not influence the output",
 "If adding a line yields an error, the aggregated output is as if the line had not been received.",
 "every bucket state and line",
 "Needs a state reached by earlier valid lines and a partially valid later one.",
 ["downsampler/avgbucket.go: AddLine, update"])
p("C33","One output line per series with sorted fields and the window's end time",
 "The emitted text has exactly one line per distinct series key accepted in the window, each consisting of the key, the fields in ascending name order and the window end time; map iteration order only permutes lines.",
 "every bucket state and every map iteration order",
 "Go map order is random; all states.",
 ["downsampler/avgbucket.go: Bytes, fieldPairs.bytes"])
# --- writer
p("C34","The writer sends every received byte once, in order",
 "For one worker without rules, the concatenation of all chunks handed to InfluxDB as first attempts, followed by the data still batched, is the concatenation of the received messages.",
 "every sequence of messages, timer wake-ups, write outcomes and clock readings",
 "All schedules.",
 ["writer/writer.go: worker, getBatchWriteFunc","batch/batch.go","batchsplitter/batch_splitter.go"])
p("C35","Batch limits are honoured",
 "After every event processed by a worker the batch is below batch_max_count messages and batch_max_size bytes and younger than batch_max_age; otherwise it has been sent and emptied.",
 "every sequence of events and clock readings","All schedules.",
 ["writer/writer.go: shouldSend, worker","listener/listener.go: shouldSend, maybeSendBatch"])
p("C36","Writer rules select lines",
 "With rules configured, the bytes batched from a message are exactly its lines that match at least one rule, in order; without rules, the message unchanged.",
 "every message and rule set","All messages.",
 ["writer/writer.go: getBatchWriteFunc, filterLine"])
p("C37","The retry queue is bounded",
 "At no time does a worker hold more than writer_retry_batches batches for retry.",
 "every history of failures, retries and timeouts","All histories.",
 ["writer/retryworker.go: retryQueue.Add"])
p("C38","When the retry queue is full the oldest batch is discarded",
 "If a batch arrives when the queue is full, the one that has been in the queue longest is dropped, whatever the retry rotation order, and no other.",
 "every history with a monotone clock","Rotation permutes the queue; all histories.",
 ["writer/retryworker.go: removeOldest, Add, CycleFront"])
p("C39","Expired batches are never retried",
 "No retry write is attempted for a batch older than writer_retry_timeout.",
 "every history and clock","All histories.",
 ["writer/retryworker.go: Front, loop"])
p("C40","A retried batch is removed on success or permanent error and otherwise rotates to the back",
 "After a retry attempt the batch leaves the queue iff the attempt succeeded or the failure was permanent; after a temporary failure every other queued batch is attempted before it is attempted again.",
 "every history and outcome","All histories.",
 ["writer/retryworker.go: loop, DropFront, CycleFront","writer/influxclient.go: isPermanentError"])
p("C41","Retries are rate limited",
 "Two consecutive retry attempts of a worker are at least writer_retry_interval apart.",
 "every schedule","All timer and arrival interleavings.",
 ["writer/retryworker.go: loop"])
p("C42","Every failed batch is accounted for",
 "Each batch handed to the retry worker is, at any time, in exactly one of: still queued, written, dropped as permanently failed, expired, or evicted; a successfully retried batch is never sent again.",
 "every history","All histories.",
 ["writer/retryworker.go"])
p("C43","A batch rejected permanently by InfluxDB is not sent again",
 "After a 4xx response for a batch, that batch is never sent again.",
 "every history","Crosses writer and retry worker.",
 ["writer/writer.go: worker","writer/influxclient.go: isHTTPClientError, isPermanentError","writer/retryworker.go: loop"])
p("C44","write_requests counts the attempts to write to InfluxDB",
 "The write_requests counter equals the number of write attempts made by the worker, including retries (README).",
 "every history","Depends on batch splitting and on lossy reporting.",
 ["writer/writer.go: worker","writer/retryworker.go: reportWrite"])
p("C45","The writer and its retry worker never deadlock",
 "In every reachable state of the pair (channel of capacity 1, non-blocking reports) one of them can take a step or is waiting for external input.",
 "every interleaving","All interleavings.",
 ["writer/writer.go: worker","writer/retryworker.go: loop, reportWrite, reportError"])
# --- batch/listener
p("C46","A batch is an append-only log until reset",
 "After any sequence of operations the batch's contents are the concatenation of what was appended or read since the last reset, its write count is the number of writes since then, its age is measured from the first of them, and growing never loses data.",
 "every sequence of operations, initial capacity and reader behaviour","All sequences.",
 ["batch/batch.go"])
p("C47","There is always room for a whole UDP datagram",
 "Whenever the UDP listener reads, at least 65536 bytes of buffer are available, so no datagram is truncated.",
 "every configuration and sequence of datagrams","All configurations and histories; Batch alone does not guarantee it.",
 ["batch/batch.go: growIfLow, grow","listener/listener.go: listenUDP, shouldSend"])
p("C48","UDP datagrams are published completely, in order and as whole lines",
 "The concatenation of everything published, followed by what is still batched, is the concatenation of the received datagrams each completed with a newline if missing.",
 "every sequence of reads, errors and clock readings","All histories.",
 ["listener/listener.go: listenUDP, sendBatch","batch/batch.go: EnsureNewline"])
p("C49","The UDP listener never publishes more than NATS accepts",
 "With a validated configuration and datagrams of at most 65507 bytes, each batch is published as a single message of at most 1 MiB.",
 "every validated configuration and history","All histories.",
 ["listener/listener.go: shouldSend, sendBatch","config/config.go: validateListener"])
p("C50","HTTP bodies are kept apart",
 "Lines of different HTTP requests are never merged: every line of every request body is a line of the published stream.",
 "every sequence of request bodies","Depends on bodies without trailing newline.",
 ["listener/listener.go: readHTTPBodyNanos, readHTTPBodyWithPrecision","batch/batch.go: ReadFrom"])
p("C51","Published messages respect the NATS size limit",
 "No message published by the HTTP listener or the downsampler is larger than 1 MiB.",
 "every batch content","Depends on a newline exactly at the limit.",
 ["listener/listener.go: sendBatch","downsampler/downsampler.go: worker","batchsplitter/batch_splitter.go"])
p("C52","HTTP data does not wait longer than batch_max_age",
 "With ideal timers, data accepted by the HTTP listener is published no later than batch_max_age after the first write of its batch, whatever requests arrive in between.",
 "every schedule of requests and timer firings","All interleavings of handler and ager.",
 ["listener/listener.go: oldBatchSender, handleHTTPWrite"])
# --- monitoring
p("C53","Metrics survive rendering and parsing",
 "Parsing the rendering of a metric whose names and label values avoid the delimiter characters returns the same name, value, timestamp and the labels in sorted order.",
 "every such metric","All names, label lists and values.",
 ["prometheus/metric.go: ToBytes","prometheus/labels.go: ToBytes","prometheus/parse.go: ParseMetric, parseLabels"])
p("C54","The monitor serves the latest value of every series",
 "After any sequence of messages, the served text contains exactly one line for each series (name + labels) ever received in a valid message, carrying the most recently received value, in ascending order of series.",
 "every sequence of messages","All histories.",
 ["monitor/monitor.go: receiveMetrics","prometheus/metricset.go"])
p("C55","A malformed monitoring message changes nothing",
 "If any line of a message is invalid the whole message is ignored.",
 "every message and state","All messages.",
 ["prometheus/parse.go: ParseMetrics","monitor/monitor.go: receiveMetrics"])
p("C56","No monitoring message can crash the monitor",
 "Parsing a message never panics.",
 "every byte string","All byte strings.",
 ["prometheus/parse.go: ParseMetric, parseLabels"])
p("C57","Scraping does not change what is served",
 "Two consecutive scrapes without a message in between return the same text.",
 "every monitor state reachable by messages","Depends on aliasing of the rendered metric with the received message.",
 ["prometheus/metric.go: ToBytes","prometheus/metricset.go: ToBytes","prometheus/parse.go: ParseMetric"])
p("C58","Counters lose no increment and never go backwards",
 "Under any interleaving of concurrent increments a counter equals the number of increments performed (modulo 2^64) and each increment returns a distinct successive value.",
 "every number of goroutines and interleaving","All interleavings.",
 ["stats/anonstats.go: Inc, Get"])
p("C59","Max keeps the largest value offered",
 "Under any interleaving of concurrent Max calls the counter is the maximum of its initial value and the values of calls that took effect; after a call returns the counter is at least its argument; the value returned is the counter value at that moment.",
 "every number of goroutines and interleaving","Lock-free retry loop.",
 ["stats/anonstats.go: Max"])
p("C60","Counter snapshots are bounded by the values during the call",
 "Each value in a snapshot lies between the counter's value when the snapshot began and when it ended.",
 "every interleaving","All interleavings.",
 ["stats/anonstats.go: Snapshot","stats/stats.go: Snapshot"])
# --- config
p("C61","A validated configuration satisfies what its component relies on",
 "If Validate accepts, then for listeners exactly one subject, a port in range and a batch size within the NATS limit hold; for filters one subject and complete rules with two-element tags; for downsamplers a non-zero period and a suffix; for writers at least one subject, port and protocol valid and credentials complete; and Validate accepts exactly such configurations.",
 "every configuration","All configurations.",
 ["config/config.go: Validate"])
p("C62","A validated configuration cannot crash rule construction",
 "Building the rule set from a validated filter or writer configuration never indexes out of range.",
 "every validated configuration","Cross-module; all configurations.",
 ["filter/rules.go: RuleSetFromConfig","config/config.go: validateFilter, validateWriter"])
p("C63","Configuration precedence and defaults",
 "Every setting takes the value from the given file, else from /etc/influx-spout.toml, else the documented default, with the mode-dependent defaults applied only to unset values.",
 "every pair of files","All combinations.",
 ["config/config.go: NewConfigFromFile, newDefaultConfig"])
p("C64","Probes report the last state set",
 "/readyz answers 200 iff the last SetReady was true (initially 503) and /healthz iff the last SetAlive was true (initially 200); with port <= 0 nothing is served.",
 "every sequence of calls","All sequences.",
 ["probes/probes.go"])
p("C65","End to end delivery",
 "Lines sent in UDP datagrams that are within the time window and match a filter rule are handed to InfluxDB by a writer subscribed to that rule's subject exactly once, once the batches are flushed and if no publish or write fails; and in order if that rule is the only one for the subject and filter and writer have one worker each.",
 "every sequence of datagrams and rule set","Composition of three components over all inputs.",
 ["listener/listener.go","filter/worker.go","writer/writer.go"])
# --- appended while modelling
p("C66","The listener's counters are exact",
 "Over any history, received is the number of datagrams (requests) from which data was read, read_errors the number of failed reads, failed_nats_publish the number of publishes that failed.",
 "every history of reads, errors and publish outcomes","All histories.",
 ["listener/listener.go: listenUDP, handleHTTPWrite, sendBatch"])
p("C67","The UDP receive buffer is rounded up to whole pages",
 "The kernel receive buffer requested is the smallest positive multiple of the page size that is at least the configured size.",
 "every configured size and page size","All sizes.",
 ["listener/listener.go: roundUpToPageSize"])
p("C68","The downsampler's stream is the specified windows, cut into chunks, and its counters are exact",
 "In every history of messages, timer wake-ups, clock readings, map orders and publish failures the downsampler worker never panics; the concatenation of what it publishes is the concatenation of the windows emitted by the specified downsampler; and its counters count messages, timestamp errors, other line errors, emitted windows and failed publishes.",
 "every history of a worker","All histories.",
 ["downsampler/downsampler.go: worker","downsampler/avgbucket.go"])
p("C69","Batched data is sent within batch_max_age plus one second",
 "If the writer worker is scheduled promptly, no received data waits in the batch for longer than batch_max_age plus one second before the batch is sent.",
 "every sequence of messages, events and clock readings of a promptly scheduled worker","All timed schedules.",
 ["writer/writer.go: worker, shouldSend"])
p("C70","Writes to InfluxDB are bounded in size and made of whole lines",
 "Every POST to InfluxDB, first attempt or retry, is non-empty and at most batch_max_size + 1 bytes long; if all messages consist of complete lines of at most batch_max_size bytes then so does every POST, each of its lines being a line of a received message.",
 "every history of messages, outcomes and retries","All histories, all splits.",
 ["writer/writer.go: worker","batchsplitter/batch_splitter.go","writer/retryworker.go"])
p("C71","Retries are neither forgotten nor postponed",
 "If the retry worker is scheduled promptly then, whenever a batch is held for retry and no retry is in progress, at most writer_retry_interval has passed since that batch was queued or since the end of some retry; in particular new failures do not postpone retries.",
 "every timed interleaving with a promptly scheduled retry worker","All timed schedules.",
 ["writer/retryworker.go: loop"])
p("C72","Component counters reach the monitor's page",
 "In every history of messages made by components (snapshots of counters, single counters) and scrapes, the monitor does not crash, and every scrape shows exactly the latest value and time of every counter that was sent, one line each, labels sorted.",
 "every history of component messages and scrapes, every map iteration order","All histories and orders; memory aliasing.",
 ["stats/prometheus.go: SnapshotToPrometheus, CounterToPrometheus, NewLabels","prometheus/metric.go","prometheus/metricset.go","prometheus/parse.go","monitor/monitor.go: receiveMetrics"])
p("C73","Every counter name has its own counter",
 "stats.New gives every name a counter of its own, using an unknown name panics, and a snapshot lists every name exactly once with a value its own counter had during the call.",
 "every list of names, every map order and interleaving","All name lists and interleavings.",
 ["stats/stats.go: New, lookup, Snapshot"])
p("C74","Component statistics are shown on the monitor's page",
 "After a round of the statistics of a listener, filter, downsampler or writer is received, a scrape shows every counter of that component with its value and time, labelled with the component, host and name (and for writers the InfluxDB address, port and database), and, if its subjects are distinct, one line for each rule of a filter or subscription of a downsampler or writer.",
 "every history of component messages before the round, every name, counter value, time and map order","All histories and values.",
 ["stats/prometheus.go","listener/listener.go: startStatistician","filter/filter.go: startStatistician","downsampler/downsampler.go: startStatistician","writer/writer.go: startStatistician"])
p("C75","Configured rules are applied in order",
 "The rules built from a configuration are, in order, those it describes; a line is given to the i-th configured rule exactly when that rule's type, match and tags select it and no earlier configured rule does; building fails for unknown types.",
 "every configuration, regular expression engine and line","All configurations and lines.",
 ["filter/rules.go: RuleSetFromConfig, Lookup","influx/tags.go: NewTag"])
p("C76","Starting and stopping never crash",
 "Whatever calls fail while a component starts and however its goroutines are scheduled, starting and stopping it does not panic.",
 "every component and configuration, every failure, every schedule","All schedules and failure points.",
 ["filter/filter.go: StartFilter, Stop","writer/writer.go: StartWriter, Stop","downsampler/downsampler.go: StartDownsampler, Stop","listener/listener.go: StartListener, StartHTTPListener, Stop","monitor/monitor.go: Start, Stop"])
p("C77","Start and Stop return",
 "StartX never waits for another goroutine. Once Stop is called (or StartX fails and calls it) it returns after a bounded number of steps of the component's goroutines, whatever the schedule, and every goroutine of the component ends.",
 "every component, reachable state and schedule","All schedules; absence of deadlock.",
 ["filter/filter.go: StartFilter, Stop","filter/worker.go: run","writer/writer.go: StartWriter, Stop","downsampler/downsampler.go: StartDownsampler, Stop","listener/listener.go: StartListener, StartHTTPListener, Stop, listenUDP, listenHTTP, oldBatchSender","monitor/monitor.go: Start, Stop, serveHTTP"])
p("C78","Stop leaves nothing behind",
 "When Stop has returned, the component's NATS connections (also those of a filter's workers), its UDP socket, its HTTP port and its probe port are closed and the goroutines it waits for have ended.",
 "every component and schedule","All schedules.",
 ["filter/filter.go: Stop","writer/writer.go: Stop","downsampler/downsampler.go: Stop","listener/listener.go: Stop, listenUDP, listenHTTP","monitor/monitor.go: Stop, serveHTTP"])
p("C79","A start that fails leaves nothing behind",
 "When starting a component returns an error, wherever it failed, no connection, socket or port is left open and no goroutine is left running.",
 "every component, failure point and schedule","All failure points and schedules.",
 ["filter/filter.go: StartFilter","writer/writer.go: StartWriter","downsampler/downsampler.go: StartDownsampler","listener/listener.go: newListener, setupUDP, StartListener, StartHTTPListener","monitor/monitor.go: Start"])
p("C80","Ready means working",
 "While /readyz answers 200 the component is connected and subscribed to all its subjects (or has its port bound), its goroutines are working and Stop has not begun; from a successful start until Stop is called /readyz and /healthz answer 200.",
 "every component, reachable state and schedule","All schedules.",
 ["filter/filter.go: StartFilter, Stop","writer/writer.go: StartWriter, Stop","downsampler/downsampler.go: StartDownsampler, Stop","listener/listener.go: listenUDP, listenHTTP, Stop","monitor/monitor.go: serveHTTP, Stop"])
p("C81","The mode selects the component",
 "Each of the six modes starts the component of that name with the configured number of workers and subjects, a writer configured with 0 workers gets two per processor, and any other mode is an error.",
 "every mode, number of workers and subjects","All mode strings.",
 ["cmd/influx-spout/main.go: runComponent"])
p("C82","The tap prints the selected lines",
 "spout-tap prints, byte for byte and in the order received, the lines of all messages that match the pattern, or all lines if there is none.",
 "every sequence of messages, every pattern","All line contents.",
 ["cmd/influx-spout-tap/influx-spout-tap.go: process"])
p("C83","Requests to InfluxDB are as configured",
 "Every write is a POST of exactly the given bytes to protocol://address:port/write with the db parameter equal to the configured database and basic authentication exactly if a user is configured; it succeeds exactly if the answer is 2xx and is permanent exactly if no request could be made or the answer is 4xx.",
 "every configuration, body and answer","All database names and status codes.",
 ["writer/influxclient.go: newInfluxClient, Write, isPermanentError"])
p("C84","The HTTP listener's success answer means the body was accepted",
 "If the HTTP listener answers a request with success then the whole body has been added to the outgoing stream; otherwise the failure is counted as a read error.",
 "every history of requests, every body and read error","All bodies, all cuts, all histories.",
 ["listener/listener.go: handleHTTPWrite, readHTTPBody, readHTTPBodyWithPrecision"])
p("C85","Dropped messages are shown on the monitor's page",
 "After a round of statistics of a filter or downsampler the monitor's page shows as nats_dropped the largest number of dropped messages NATS has reported for the subscription so far; the number shown never decreases.",
 "every history of statistics rounds and component messages, every reading","All histories.",
 ["filter/filter.go: updateNATSDropped, startStatistician","downsampler/downsampler.go: startStatistician"])
p("C86","Workers share the messages",
 "Every message that arrives from NATS is, at any moment, in exactly one place: received by exactly one worker, in the queue, or waiting in its callback; the order of each subscription is kept into the queue and each worker receives in queue order; a single worker receives in arrival order; while a worker runs no message is stuck; a callback waits only while 1024 messages are queued.",
 "every number of subscriptions and workers, every schedule","All schedules.",
 ["filter/filter.go: StartFilter","filter/worker.go: run","writer/writer.go: StartWriter, worker","downsampler/downsampler.go: StartDownsampler, worker"])
p("C87","A writer works until it is stopped",
 "A writer's worker ends only after Stop has been called, and its retry worker only after the worker has ended; nothing that InfluxDB answers and no message ends them.",
 "every history and interleaving","All histories.",
 ["writer/writer.go: worker, Stop","writer/retryworker.go: loop, Stop"])
p("C88","Every line is in exactly one place",
 "In every reachable state of a deployment of any number of UDP and HTTP listeners, filters (sharing a NATS queue group), downsamplers and writers (alone or in queue groups), each with any number of workers, any of which may start and crash at any time: if no publish failed and the lines were timely, each line sent to a listener, selected by the filter rules for a subject of a writer and (if the writer has rules) matching one of them is exactly once with a worker of that writer or queue group (sent or batched), in a queue, under way in NATS or dropped by it (or published before the writer subscribed), being filtered, in a listener's batch, or in a request still being read (of running processes, or of crashed ones at that moment); when nothing is under way the workers of the writer have together sent each exactly once; whatever fails, crashes, is restarted or is dropped, no line is sent twice as a first attempt.",
 "every number of listeners, filters, downsamplers, writers and their workers, every history and schedule, every rules","All schedules and worker counts.",
 ["listener/listener.go: listenUDP, handleHTTPWrite, sendBatch","filter/filter.go: StartFilter","filter/worker.go","writer/writer.go: StartWriter, worker","batchsplitter/batch_splitter.go"])
p("C89","The listeners send a batch when a limit is reached, and only then",
 "Data received by a listener is collected and sent as one batch by the first check that finds batch_max_count writes, an oldest write of batch_max_age, or a size within one datagram of batch_max_size; never earlier, never an empty batch, and a batch is everything collected since the last one. UDP data read at time t is published by an iteration that looks at the clock no later than t + batch_max_age + the longest iteration (one second of read deadline plus processing).",
 "every sequence of datagrams, requests, wake-ups and clock readings","All timed histories.",
 ["listener/listener.go: listenUDP, shouldSend, maybeSendBatch, sendBatch, oldBatchSender","batch/batch.go: Age, Writes, Size"])
p("C90","The archive is the aggregation of the measurements sent",
 "In every reachable state of a deployment of any number of listeners, filters, downsamplers and writers with their workers, for a downsampler's subject and a writer (or queue group of writers) of its output: if no publish to or by the filter failed, the lines were timely and well-formed measurements, everything has reached the downsampler and it counted no error, then the downsampler has emitted the aggregations of consecutive aligned windows, the i-th being that of exactly the measurements sent to the listeners whose time is in the i-th window (in some order of arrival), every measurement is in an emitted or one of the three pending windows, and each message of these emissions is with exactly one worker of the archive writer, under way, or its publish failed.",
 "every number of listeners, filter workers and archive writer workers, every rules, period, history and schedule","All schedules of five concurrent components.",
 ["listener/listener.go","filter/worker.go","downsampler/downsampler.go: worker","downsampler/assigner.go: Update, Bytes","downsampler/avgbucket.go","writer/writer.go: worker"])
p("C91","No data races",
 "Of two accesses by different goroutines of a component to the same memory, at least one of which writes and not both of which are atomic, one happens before the other; so at no moment are two goroutines both about to make such accesses.",
 "every component, every number of workers, requests and messages, every schedule, every failure during start, every moment of Stop","Schedules and counts are unbounded; the race detector sees single executions.",
 ["listener/listener.go","filter/filter.go: StartFilter, Stop, startStatistician","filter/worker.go","writer/writer.go: StartWriter, worker, startStatistician","writer/retryworker.go","writer/influxclient.go: Write","downsampler/downsampler.go: StartDownsampler, worker, updateNATSDropped","monitor/monitor.go","probes/probes.go","stats/stats.go","stats/anonstats.go"])
p("C92","Memory of batches is bounded",
 "The buffer of a batch is never larger than it was at the start or twice (the most it ever held plus 64 KiB). The buffer of a UDP listener stays at batch_max_size if that is at least 64 KiB and is otherwise at most 64 KiB larger. A writer's worker that receives messages of at most m bytes never batches more than batch_max_size + m bytes in a buffer of at most twice that plus 128 KiB (or its initial 32 pages), and keeps for retrying at most writer_retry_batches + 2 chunks of at most batch_max_size + 1 bytes each. The buffer of the HTTP listener is bounded independently of the requests.",
 "every history of operations, datagrams, requests, messages and answers","Unbounded histories and sizes.",
 ["batch/batch.go: New, Append, ReadFrom, ReadOnceFrom, EnsureNewline, Reset, grow, growIfLow","listener/listener.go: newListener, listenUDP, readHTTPBody","writer/writer.go: worker, shouldSend","writer/retryworker.go"])
p("C93","Failures are reported",
 "If any call made while a component starts returns an error, starting it returns an error and the component never becomes running; a start that succeeds means that every connection, socket and subscription it needs is there until Stop is called; a port that cannot be bound makes the process exit, and nothing else does.",
 "every component, failure point and schedule","All failure points and schedules.",
 ["filter/filter.go: StartFilter","writer/writer.go: StartWriter","downsampler/downsampler.go: StartDownsampler","listener/listener.go: StartListener, StartHTTPListener, listenHTTP","monitor/monitor.go: Start, serveHTTP"])
p("C94","The performance check reports regressions",
 "benchcheck (perfcheck) ends with a failure exactly if some benchmark of the comparison regressed by 10% or more (or by the percentage given with -max-delta), or if the comparison cannot be read.",
 "every comparison (tables and rows) and limit","All comparisons and boundary values.",
 ["cmd/benchcheck/benchcheck.go: findProblems, main","README.md: Checking for performance regressions"])
p("C95","A deployment that is not stopped can always finish its work",
 "From every reachable state of a deployment (messages waiting anywhere, requests half read, batches half sent, chunks waiting for their retry, publishes failed, messages dropped, processes crashed or started) in which no running process was stopped and subjects do not run in circles, there is a continuation to a state in which nothing is left to do for the running processes: the listeners have read and published everything, filters are idle, NATS and all queues are empty, and every worker of every writer has sent everything, with no chunk waiting for a retry. If nothing went wrong so far and the lines are within the filters' time window at some time, there is one in which each line sent has been sent to InfluxDB exactly once by the workers of every writer whose subjects and rules select it. So no reachable state is a deadlock or has lost a line for good.",
 "every number of components and workers, every reachable state (with any starts and crashes), every configuration without cycles","Every reachable state of the whole deployment, in every schedule.",
 ["listener/listener.go","filter/filter.go","filter/worker.go","downsampler/downsampler.go: worker","writer/writer.go: worker","writer/retryworker.go","batchsplitter/batch_splitter.go"])
p("C96","One client's lines do not affect another's",
 "Whatever other lines are in the same message, a line accepted by the filter is published as a line of a message on its subject: the published messages consist of complete lines, one for each accepted line.",
 "every message of complete lines, every rules and time window","All combinations of lines that can share a message.",
 ["filter/worker.go: processBatch","filter/rules.go: SortTags","influx/tags.go: ParseTags, Bytes"])
p("C97","A crash loses what the process held, and nothing else",
 "However processes of a deployment start and crash, at whatever moments: if no publish failed, the lines are timely and a filter is running, the running processes can go on until nothing is left to do, and for every writer or queue group with a running process each line sent to the listeners and selected for it is then exactly once: sent to InfluxDB by a running worker, or received by a crashed worker of the group (sent before the crash or in its batch), or in a message that NATS dropped, that was published before the group subscribed or that waited in the queue of a crashed process, or in the message a crashed filter was working on, or in the batch or the unread requests of a crashed listener. Nothing that a running process holds is lost or duplicated by the crash of another.",
 "every number of processes and workers, every history, every moment of every start and crash","Crash points and schedules are unbounded.",
 ["listener/listener.go","filter/filter.go: StartFilter","filter/worker.go","writer/writer.go: StartWriter, worker","downsampler/downsampler.go"])
p("C98","A writer of the listeners' subject writes every line unchanged",
 "In a deployment where a writer (or a queue group of writers) subscribes to the subject the listeners publish on (the default subject of every component), each line sent to the listeners that passes the writer's own rules is, byte for byte, exactly once in the first attempts and batches of its workers, on its way to them, or still held by a listener; at most once whatever is lost; and exactly once in what was sent to InfluxDB once all processes have finished their work, which they can always do.",
 "every number of listeners, filters, downsamplers and writers, every history and schedule","Schedules, deliveries and crashes are unbounded.",
 ["config/config.go: newDefaultConfig","listener/listener.go","writer/writer.go: StartWriter, worker"])
p("C99","The counters of a deployment add up",
 "At every moment, over all filters of a deployment, processed plus the lines that no filter has processed yet (held by listeners, on the way, dropped, being worked on) equals the number of lines sent to the listeners; passed + rejected + invalid_time is at most processed, and equal if all lines parse; passed is the sum of triggered over the rules; if the lines are timely, triggered of a rule is the number of lines sent that belong to it, less the unprocessed ones; received of writers and downsamplers plus the messages on the way to them is the number published on their subjects. In the end processed, triggered, passed and rejected are exactly the numbers of lines sent, and triggered of a rule is the number of lines its writer has sent to InfluxDB.",
 "every number of listeners, filters, downsamplers and writers, every history, schedule and crash","The end-to-end test checks the numbers of one run; schedules and histories are unbounded.",
 ["filter/worker.go: processBatch, processLine","filter/filter.go: initStats","writer/writer.go: worker","downsampler/downsampler.go: worker","cmd/influx-spout/e2e_large_test.go"])
p("C100","The writer recovers from an outage of InfluxDB",
  "Once InfluxDB answers retries again (within L of their start, accepting the data or refusing it for good), everything that was held for retry at that moment has left the retry queue at most writer_retry_batches * (writer_retry_interval + L) later, whatever happens in the meantime: other writes may still fail, new batches may fail and be queued, and retries that failed during the outage do not delay it. Each of these chunks was accepted, refused for good, discarded to make room for a newer one or had been held for longer than writer_retry_timeout; one that was neither discarded nor too old was sent again, with its original bytes, and answered.",
  "every history of a writer before the end of the outage, every schedule of worker, retry worker and clock afterwards in which the retry worker is not delayed, every setting of the retry queue, every L",
  "The bound is over all queue contents and all interleavings of new failures with the rotation of the queue; a test sees one outage with one queue.",
  ["writer/retryworker.go: loop, Add, Front, DropFront, CycleFront","writer/writer.go: worker"])

p("C101","Without new input a deployment settles under every schedule",
  "In whatever state a deployment is, if nothing more is sent to its listeners and no process starts or ends, then under every schedule of all processes, NATS and the clocks (also with messages dropped and publishes or writes failing) there is a moment after which the work that is left does not change any more and nothing is published, nor sent to InfluxDB for the first time: no component produces data without end, messages do not multiply or circulate, and only retries can go on. Under every schedule in which something is done as long as anything is left to do, there is a moment from which on nothing is left to do: all batches, queues and retry queues are empty; and if nothing was lost and no publish failed, every line has been sent to InfluxDB exactly once by the workers of each writer it is for. Such schedules exist from every state in which no running process was stopped.",
  "every reachable state of a deployment with any number of components, every infinite schedule, every configuration without cycles whose writers have a positive maximal batch size",
  "The claim is about all infinite executions (termination, not reachability): a test sees one schedule and has to stop after a while.",
  ["listener/listener.go: maybeSendBatch, sendBatch, oldBatchSender","filter/worker.go","downsampler/downsampler.go: worker","writer/writer.go: worker","writer/retryworker.go: loop"])

p("C102","Every measurement finally is in the archive",
  "In whatever state a deployment is, as long as no running process was stopped and messages do not run in circles, it can go on without input and without losing a message to a state in which nothing is left to do and no downsampler holds a measurement. Without new input, every schedule in which something is done as long as anything is left to do or a downsampler holds a measurement (so clocks do not stand still) reaches, and stays in, such a state. In every such state, if no publish failed, the lines were within the filters' time window, nothing was lost, and the downsampler of a subject counted no invalid line or timestamp: what the workers of the writer of the archive have sent to InfluxDB is exactly the aggregations of consecutive windows of the period, each message by one worker, and every measurement sent to a listener that is for this subject is in one of these windows.",
  "every reachable state of a deployment with any number of components, every infinite schedule, every set of well-formed measurements, every configuration without cycles whose writers have a positive maximal batch size",
  "The end of a window depends on the clock and on three windows moving; whether a measurement can stay in a downsampler forever is a question about all infinite executions.",
  ["downsampler/assigner.go: Update, Bytes, UntilNext","downsampler/downsampler.go: worker","writer/writer.go: worker","listener/listener.go","filter/worker.go"])

p("C103","A float average lies between the smallest and the largest sample",
  "If a field's first sample in a period is a float, the number emitted for the period is finite and lies between the smallest and the largest of its float samples.",
  "every sequence of samples that the downsampler reads as finite float64, every field and series",
  "float64 rounding depends on all bits of all samples; a test shows a few averages, not that rounding never leaves the range of the samples or overflows.",
  ["downsampler/avgbucket.go: floatFieldValue.update, floatFieldValue.bytes, newFieldValue"])
p("C104","A float average is the mean, up to rounding",
  "The number emitted for float samples of magnitude at most M (at most half the largest float64) differs from their mean by at most N * (M * 2^-51 + 2^-1075), where N is the number of samples.",
  "every sequence of fewer than 2^53 samples, every bound M",
  "Rounding errors of the incremental formula add up over the history; no sample of inputs bounds them.",
  ["downsampler/avgbucket.go: floatFieldValue.update"])
p("C105","Floats are read as the nearest float64 and emitted so that reading gives the same float64",
  "A decimal numeral (optional sign, digits with an optional point, optional exponent) is read as the float64 nearest to it, ties to the even one; it is rejected exactly if it is at least half a step beyond the largest float64; nothing else is read as a finite number (except hexadecimal or underscore literals of newer versions of Go). A finite float64 is emitted as such a numeral and reading it gives the same float64; in particular a field seen once in a period is emitted with exactly the value of its sample.",
  "every byte string, every one of the finite float64",
  "There are 2^64 float64 and infinitely many numerals; correct rounding fails, if it fails, for a few of them.",
  ["downsampler/avgbucket.go: newFieldValue, floatFieldValue.update, floatFieldValue.bytes"])
p("C106","Lines of one sender reach InfluxDB in the order they were received",
  "If NATS passes on the messages of each subscription in the order of publishing (it may drop some), then what a worker of a writer sends to InfluxDB (first attempts, in their order) and still holds consists of texts of received lines, and those that come from one listener are in the order in which that listener received them (HTTP: published them). Whatever the order in NATS: the lines of one message of a listener stay together and in their order.",
  "every deployment, every number of filter and writer workers, every schedule in which NATS keeps the order and drops what it likes",
  "Whether a line overtakes another depends on the schedule of workers; a test sees one schedule.",
  ["filter/filter.go: StartFilter","filter/worker.go: processBatch, sendOff, publish","writer/writer.go: StartWriter, worker","listener/listener.go: listenUDP, maybeSendBatch, sendBatch","config/config.go: newDefaultConfig"])
p("C107","The backlog is bounded, and messages are dropped only when it is full",
  "In a filter, writer or downsampler with nats_max_pending_size = L (positive, less than 2^63 bytes) the messages that wait for a subscription never have more than L bytes (until the limit is set, right after subscribing, the default limit of the NATS client applies); the memory of all waiting messages is at most one limit for each subscription plus a queue of 1024 messages. A message is dropped only if the limit would be exceeded with it, and each dropped message is counted; the others reach the workers as in C86. With 0 the component does not start; from 2^63 bytes on nothing is limited.",
  "every number of subscriptions and workers, every sequence of messages of any size, every schedule of NATS, callbacks and workers",
  "Overload depends on the schedule of producers and workers; a test fills one buffer in one way.",
  ["filter/filter.go: StartFilter","writer/writer.go: StartWriter","downsampler/downsampler.go: StartDownsampler","config/config.go: NATSMaxPendingSize"])
p("C108", "Sizes and durations in the configuration mean what they say",
  "Every duration in a configuration file (such as `1h30m` or `1.5s`) is loaded as the number of nanoseconds that it stands for: exactly without digits after the point or when these do not divide a nanosecond, and otherwise to within 1.1 ns per part with such digits. Every size (such as `2048KB`, `2 mb` or `2097152`) is loaded as the number of bytes it stands for, in multiples of 1024. Values that do not fit in 63 bits of nanoseconds or 64 bits of bytes, durations without a unit, sizes in bits and unknown units are rejected and loading fails; nothing wraps around or is silently taken as something else. A setting in the given file hides that of the common file.",
  "all texts of durations and sizes (any number of parts and digits, any sign, case and white space), all pairs of configuration files",
  "tests try a few texts; overflow at 2^63 and 2^64 and the float64 rounding of fractions depend on the digits in every position",
  ["config/duration.go: UnmarshalText", "config/config.go: Config, readConfig", "README.md: batch_max_age, batch_max_size"])
p("C109","A line reaches InfluxDB within a bounded time",
  "If the UDP listener looks at its clock at least every G, a published message takes at most N1 to the filter and the filter's message at most N2 to a worker of the writer, and the workers are scheduled promptly and not stopped, then every line of a datagram read at time t that belongs to the writer's subject and is timely is in a batch that the writer starts to send after t (so it is this line that arrives and not an equal one sent before) and at t + batch_max_age of the listener + G + N1 + N2 + batch_max_age of the writer + 1 s at the latest, however few lines follow it.",
  "every line, every sequence of datagrams before and after, every set of rules, every number of writer workers, every schedule within the bounds",
  "The delay adds up over three processes and their timers; a test with small limits sees only batches that fill up quickly.",
  ["listener/listener.go: listenUDP, maybeSendBatch","filter/worker.go: processBatch","writer/writer.go: worker, shouldSend"])
p("C110","InfluxDB stores what was received",
  "InfluxDB keeps the last value written for each field of each point. When everything a writer worker received was in the end accepted, at the first write or at a retry, InfluxDB stores what it would store if each line had been written once and in the order of arrival, whichever requests failed, were handled although they failed, or were handled late.",
  "every sequence of messages, of answers and lost answers of InfluxDB, and of retries; every way in which failed requests may have been handled in part; every reading of lines as values of fields",
  "Whether a lost answer means a lost write, and what overtakes what, differs between runs; tests use a server that answers in a fixed way.",
  ["writer/writer.go: worker","writer/retryworker.go: retryWorker, retryQueue","writer/influxclient.go: Write"])
p("C111","InfluxDB finally contains what the clients sent",
  "If no message is lost between a UDP listener, a filter and the workers of a writer (messages may overtake each other), the lines are timely, and the lines for the writer's subject carry timestamps, give no field of a point two different values and fit in a write, then, when everything is flushed and accepted, InfluxDB stores for each field of each point exactly the value that a line sent to the listener for this subject says, and nothing else, whatever was batched together, retried or handled twice. The same holds in every reachable state of a deployment of any number of listeners (UDP and HTTP), filters and writers in which nothing is under way, and under every fair schedule without input from some moment on; and whatever fails or crashes, InfluxDB never stores anything but what a line sent says, and keeps what a write it accepted says.",
  "every sequence of datagrams and requests, every set of rules, every number of processes and workers, every order of messages, every sequence of failures, retries and crashes, every reading of lines as values of fields",
  "Batching, routing, retries and duplicated writes interact; tests look at each of them alone.",
  ["listener/listener.go: listenUDP","filter/worker.go: processBatch","writer/writer.go: worker","writer/retryworker.go: retryWorker"])
p("C112","What the configuration files say is what the databases get",
  "Processes started from configuration files that were read and accepted, whose listeners use the subject of the filter and whose subjects do not get in each other's way, in any schedule, with processes starting and crashing: when nothing is under way to a writer and nothing failed or was lost, what it has sent to InfluxDB are exactly those lines (with tags in order) sent to the listeners whose first matching rule in the filter's file names a subject in the writer's file (or that match no rule, if its file names the junk subject), and that match a rule of the writer's file if it has any; each once. In every fair schedule after the last input this is reached, and if the lines carry timestamps and agree with each other, InfluxDB then holds exactly what they say. Whatever the files say, accepted settings keep every batch of a listener small enough for NATS and let no writer have an empty maximal batch; files on one machine that do not set nats_subject agree on it.",
  "every set of configuration files and environment variables, every number of processes, every schedule, crash and input of the listeners",
  "Tests run one set of files with a few lines; the claim connects every set of accepted files to the content of the databases for every input and schedule.",
  ["config/config.go: NewConfigFromFile, Validate","filter/filter.go: StartFilter","filter/rules.go: RuleSetFromConfig","writer/writer.go: StartWriter","downsampler/downsampler.go: StartDownsampler","listener/listener.go: StartListener, StartHTTPListener","cmd/influx-spout/main.go: runComponent"])
p("C113","The limits in the configuration files are in effect",
  "In every state that a deployment started from accepted configuration files can reach: every listener has published exactly the batches that batch_max_count, batch_max_age and batch_max_size in its file ask for, and no message of a UDP listener is larger than 1 MiB; a filter worker has dropped a line with a full-length timestamp for its time if and only if it was max_time_delta or more away from the clock; every worker of a writer waits only while its batch is below the limits in its file and sends it only when one of them is reached, holds at most writer_retry_batches batches for retry, does not retry a batch after writer_retry_timeout, and leaves writer_retry_interval between attempts; filters and writers run the configured number of workers. Each limit is that of the component's own file, else that of /etc/influx-spout.toml, else the documented default.",
  "every set of configuration files, every schedule, input, crash and start of a process, and every worker",
  "Tests check single settings of single components; that no setting is confused with another, and that it holds in every reachable state of a deployment, needs a proof over all files and schedules.",
  ["config/config.go: NewConfigFromFile","listener/listener.go: StartListener, maybeSendBatch","filter/worker.go: processBatch","writer/writer.go: StartWriter, shouldSend","writer/retryworker.go: newRetryWorker","cmd/influx-spout/main.go: runComponent"])
p("C114","From configuration files to the archive",
  "For processes started from accepted configuration files: every measurement that a client sends and that the filter's file routes to the subject of a downsampler gets, from some moment on in every schedule after the last input that is fair to the archive, into exactly one aggregation that the writer of the downsampler's output subject was made to send to InfluxDB; the aggregations are those of consecutive windows as long as downsample_period in the downsampler's file (else in the common file, else one minute), provided that the period is positive, that no publish failed, that the lines were timely and that nothing was lost. A negative downsample_period is accepted, but then nothing is ever published: every line is counted as having an invalid timestamp, and the timer is always due.",
  "every set of accepted configuration files, every number of processes, schedule, crash and input, and for the last part every negative period and every sequence of messages and timeouts",
  "Tests run a downsampler with one period on a few lines; the claim connects every set of files to the archive for every input and schedule.",
  ["config/config.go: NewConfigFromFile","downsampler/downsampler.go: StartDownsampler, worker","filter/rules.go: RuleSetFromConfig","writer/writer.go: StartWriter"])
p("C115","A listener and a writer suffice",
  "Listeners and a writer whose configuration files leave nats_subject at its default (or name the same subject), with any other processes whose subjects differ: when nothing is under way and nothing failed or was lost, what the workers of the writer have sent to InfluxDB are exactly the lines that clients sent to the listeners (all of them if the file has no rules, else those that match one), each once; whatever is lost or crashes, each at most once. In every fair schedule after the last input there is a moment from which on this is so. When all writes were in the end accepted, InfluxDB holds exactly what these lines say.",
  "every set of accepted configuration files with such a writer, every number of listeners, writers and workers, every schedule, crash and input",
  "Tests run listener and writer apart, with subjects chosen by the test; that the defaults fit together for every input and schedule is not tested.",
  ["config/config.go: NewConfigFromFile, newDefaultConfig","listener/listener.go: StartListener, StartHTTPListener","writer/writer.go: StartWriter, worker","cmd/influx-spout/main.go: runComponent"])
p("C116","No accepted configuration sends lines round in circles",
  "Whatever the configuration files, once the clients send nothing more, a deployment whose files were accepted finishes: every line is processed by a filter once, passed on or dropped, and there is a moment from which on nothing is left to do.",
  "every set of accepted configuration files, every number of processes and workers, every schedule, every line sent",
  "Tests use files whose subjects differ; a rule, a junk subject or a default that coincides with the filters' own subject is accepted without a word, and whether lines then circulate for ever is a statement about infinite schedules.",
  ["config/config.go: NewConfigFromFile, newDefaultConfig","filter/filter.go: StartFilter","filter/worker.go: processBatch, sendOff","filter/rules.go: Lookup"])
p("C117","An archive of an archive",
  "A downsampler can read the archive that another one publishes, over a longer period, and so on for any number of levels. When everything has been processed and nothing failed or was lost, each window of the last archive holds, for each series and field of the measurements sent by the clients, the aggregation of the measurements of this window, and InfluxDB is sent each of these lines once.",
  "every number of levels, every sequence of measurements, every choice of periods and starting times, every schedule, number of listeners, filters and writers, and every order of messages and of the iterations over maps",
  "Tests run a single downsampler on single messages; what the levels make of each other's output depends on the times with which the rows are stamped, the order of the rows, how messages are split and when each level emits.",
  ["downsampler/downsampler.go: StartDownsampler, worker","downsampler/assigner.go: Update, Bytes","downsampler/avgbucket.go: AddLine, Bytes","writer/writer.go: worker"])
p("C118","What arrives on time is not refused",
  "As long as the clock of a downsampler is not set back, it refuses a measurement as too old only if its time is more than one downsample_period before its arrival. If moreover the worker is never held up beyond the window following that in which it last looked for output (for instance, never for longer than one period), it refuses no measurement whose time is between one period before its arrival and its arrival - if all are such, invalid_timestamps stays zero - and what exactly it refuses depends only on the window in which it last looked for output: everything before the preceding window and everything after the following one. Every window is then sent between one and two periods after its end; so an archive of an archive loses no row to a downsampler whose period is at least twice the first plus the delay in between. Both conditions are needed: a worker held up for three periods refuses a measurement of the present moment as too new, and after the clock was set back one as too old.",
  "every period and starting time, every sequence of messages, lines, time-outs and clock readings of a worker that never goes back (and, where stated, never pauses beyond the window following that in which it last looked for output), every outcome of publishing, every order of the iterations over maps",
  "Tests hand single lines to an assigner with a fixed clock; which measurements are refused depends on the whole history of messages, time-outs and clock readings.",
  ["downsampler/assigner.go: Update, findBucket, Bytes, UntilNext","downsampler/downsampler.go: worker"])
p("C119","Consistent measurements that arrive on time are archived",
  "Well-formed measurements in which no line repeats a field and the values of each field of a series are always of one kind (string, integer, float or other) are never counted as invalid lines by a downsampler, whatever their times, the clock and their order. If they also arrive on time - the clock is never set back, the worker is never held up beyond the window following that in which it last looked for output (for instance, never for longer than one period), and each time is in the window of the worker's last look for output or one next to it - the downsampler counts no error at all, and, in a deployment in which nothing failed or was lost, InfluxDB has been sent, once nothing is left to do, the aggregations of consecutive windows in which all the measurements are, each once; under every fair schedule this is eventually so.",
  "every period and starting time, every consistent set of well-formed measurements, every sequence of messages, time-outs and clock readings; every deployment of listeners, filters, downsamplers and writers, every reachable state and every fair schedule",
  "Tests add a handful of lines to one bucket; whether a type mismatch or a refused time is ever counted depends on every earlier line of the series and on the whole history of the clock.",
  ["downsampler/avgbucket.go: AddLine","downsampler/assigner.go: Update, findBucket, Bytes","downsampler/downsampler.go: worker"])
p("C120","Archives keep to the schema of the measurements",
  "If the measurements sent for the subject of a chain of downsamplers conform to a schema - each well-formed, none with a field twice, and the values of each field of a series of the one kind (string, integer, float or other) that the schema says - then, whatever fails, crashes, is lost or comes late or out of order, no downsampler of the chain ever counts an invalid line, and everything the chain publishes and everything its writers send to InfluxDB, in first attempts and retries, is lines of measurements that conform to the same schema: averages of integers are integers, of floats (also if infinite or not a number) floats, strings stay strings. (Unless a line had to be cut because it did not fit in a message or a write.) If moreover every downsampler gets its input on time and nothing failed or was lost, the levels of aggregation of all the measurements, each once, are what InfluxDB has been sent once nothing is left to do, and under every fair schedule this is eventually so.",
  "every schema, every set of measurements that conform to it, every chain of downsamplers of any length, every deployment, every reachable state and every fair schedule; all float64 values",
  "A field that changes its type makes InfluxDB reject writes for good; whether one ever does depends on the types of all values of all windows on every level and on how every float is printed, which tests only sample.",
  ["downsampler/avgbucket.go: AddLine, newFieldValue, bytes","downsampler/assigner.go: Update, Bytes","downsampler/downsampler.go: worker","writer/writer.go: worker"])
p("C121","From configuration files to archives of archives",
  "Processes are started from accepted configuration files of which no two downsampled archives have the same subject. The levels of an archive can be read off the files: a downsampler file that names a subject makes the archive with its period on the subject with its suffix, the archive of this is the next level, and so on. Whatever steps the processes then take, each of these levels is made by exactly one downsampler with the file's period. If the lines that the filter's file sends to a subject are measurements that conform to a schema, then whatever fails, crashes or is lost, everything on every level, and in every write of a writer whose file names its subject, conforms to the schema; and after the last input, under every fair schedule, from some moment on: if nothing failed, was lost or came late, every writer whose file names the subject of a level has sent to InfluxDB the lines that these levels of aggregation, with the periods of the files, make of all the measurements, each once (those that the rules in its file take).",
  "every set of accepted configuration files with separate subjects, every number of levels, every input, every schedule of the processes, every fair schedule after the last input, every schema and all measurements that conform to it",
  "That the files of four kinds of processes together make one archive out of another for every input and schedule is a statement about all executions of a distributed system; an integration test runs one configuration with one level.",
  ["config/config.go: NewConfigFromFile","downsampler/downsampler.go: StartDownsampler, worker","filter/filter.go: StartFilter","writer/writer.go: StartWriter","listener/listener.go: StartListener","cmd/influx-spout/main.go: runComponent"])
p("C122", "The archive in InfluxDB is the archive of what was sent",
  "When everything sent has been aggregated and written, InfluxDB's database holds, for every archive made by a chain of downsamplers, a value for a field of a series at a time exactly if that time is the end of an aggregation window in which the level below has samples of the field, and the value is the aggregation of these samples: the workers' batching, retries, duplicate handling of a write and the order in which the writes are handled make no difference, because no archive gives a field of a point two values.",
  "every deployment (also started from configuration files), every schedule fair to the archive, every number of levels, every input that conforms to a schema and comes on time, every interleaving and repetition of the writes handled by the database, and every reading of lines that tells series, fields and times apart",
  "Order and repetition of writes come from the network and from InfluxDB; a test sees a few of them, on an archive of one window.",
  ["downsampler/avgbucket.go: EndTime, Bytes", "downsampler/downsampler.go: worker", "writer/writer.go: worker, shouldSend", "writer/retryworker.go: loop"])
p("C123", "A measurement is in the archive in InfluxDB within a bounded time",
  "If a downsampler's clock is not set back, it is never held up beyond the window following that in which it last looked for output (for instance, never for longer than a period) and its measurements come at most a period late, then less than two periods after the end of an aggregation window it has published the summary of all the measurements of that window, and nothing that comes later could have belonged to it. With messages taking at most N to a writer without rules whose workers are scheduled promptly, the row with the aggregated values of a measurement's series over its window is in a batch that the writer starts to send at most three periods, N, batch_max_age and a second after the time of the measurement.",
  "every period, starting time, history of the downsampler worker (messages, cuts into messages, timer wake-ups, clock readings, map orders, publish failures), every set of well-formed measurements of one kind per field, every schedule of every number of writer workers that wakes them when their timers fire, and every measurement",
  "The bound is about real time and all schedules; tests of the downsampler use a fake clock and one window, and tests of the writer do not see the downsampler.",
  ["downsampler/downsampler.go: worker", "downsampler/assigner.go: Bytes, UntilNext", "downsampler/avgbucket.go: Bytes, EndTime", "writer/writer.go: worker, shouldSend"])
p("C124", "The downsampler's own timer keeps it in time",
  "A downsampler worker needs nothing but its timer to be in time. If the clock is never set back, the worker computes the duration of its timer at most d1 after it has started or last looked for output, and everything in the following iteration - handling a message, if one comes first, and the next look for output - happens less than d2 after the timer would fire, where d1 + d2 is at most one downsample_period, then, whatever messages come and whenever: every window is sent between one and two periods after its end, every window that ended at least a period before the last look has been sent, no measurement that comes at most a period late and not early is refused, and the bound of three periods, N, batch_max_age and a second from a measurement to the write of its row holds.",
  "every period, starting time and pair of delays that add up to at most a period, every sequence of messages, time-outs and clock readings, every outcome of publishing, every order of the iterations over maps",
  "How long the timer runs depends on the windows tracked after the whole history; tests check single calls on a fake clock and do not run the timer against the windows.",
  ["downsampler/downsampler.go: worker", "downsampler/assigner.go: UntilNext, Bytes, newAssigner"])
p("C125", "A line sent over HTTP is sent to InfluxDB within a bounded time",
  "If the goroutine of the HTTP listener that sends old batches is never delayed by more than D (timer latency and waiting for the lock), then whatever requests come, everything that a request adds to the batch at a time t has been handed to NATS, in one piece of the stream, by t + batch_max_age + 2 D. Conversely, everything in a batch that is sent was posted at most batch_max_age + 2 D before. If moreover the messages end at line boundaries (C51), a message takes at most N1 to the filter and from there at most N2 to a worker of the writer, and the writer is scheduled promptly, then every line posted at t that is timely and belongs to the writer's subject is in a batch that the writer starts to send after t and by t + batch_max_age of the listener + 2 D + N1 + N2 + batch_max_age of the writer + 1 s.",
  "every schedule of requests, clock ticks and sender wake-ups, every split of bodies into reads, every D, N1, N2, every configuration with non-negative ages, every outcome of publishing",
  "The age of a batch is counted from its first write, the timer is armed before later writes are known and requests interleave with it; tests run one request against one idle sender.",
  ["listener/listener.go: oldBatchSender, handleHTTPWrite, maybeSendBatch, sendBatch", "batch/batch.go: Age, ReadFrom, Append", "filter/worker.go: processBatch", "writer/writer.go: worker"])
p("C126", "A downsample_period longer than the way to the downsampler refuses nothing",
  "Every line that the UDP listener publishes was read at most batch_max_age + G earlier, if the listener looks at the clock within G of every read and at least every G. Hence, if a message takes at most N1 to the filter and from there at most N2 to the downsampler, clients send each measurement at most K after its time, and batch_max_age + G + N1 + N2 + K is at most downsample_period, then every measurement reaches the downsampler at most a period late and not early, a downsampler that keeps its timer (C124) refuses none of them, and the rows of the archive reach InfluxDB within the bound of C123. The condition is needed: a listener with a larger batch_max_age makes the downsampler refuse a measurement that was sent at once.",
  "every sequence of datagrams and clock readings, every G, N1, N2, K, every configuration of the listener with a non-negative age and a size that fits into a message, every rule list, every assignment of lines to messages that results, every iteration of the downsampler",
  "It is a relation between a limit in one component's configuration and a period in another's, over all ways in which lines are batched on the way; tests run the components alone.",
  ["listener/listener.go: listenUDP, shouldSend, sendBatch", "batch/batch.go: Age, Reset", "filter/worker.go: processBatch", "downsampler/assigner.go: Update", "downsampler/downsampler.go: worker"])
p("C127", "The monitor's page is at most a stats_interval behind",
  "If a component's statistician is never delayed by more than D and the monitor has received, in order, all its rounds that were published at least N ago (and perhaps more), then, whatever other components have sent in between and however often the page was fetched, the page shows every counter of the component with the value it had at some moment between now - N - stats_interval - D and now, together with that moment in milliseconds; the value is not larger than the counter's value now. Everything that was counted more than N + stats_interval + D ago is on the page. There is a round in every stretch of stats_interval + D.",
  "every interleaving of counting, clock ticks and rounds, every interval, D and N, every history of the monitor made of the component's rounds and messages of others, every order of iterating over maps, the labels of all kinds of components",
  "It relates a loop with a timer, counters that change while it waits, and a store fed by many components; tests look at the page once after one round.",
  ["listener/listener.go: startStatistician", "filter/filter.go: startStatistician", "downsampler/downsampler.go: startStatistician", "writer/writer.go: startStatistician", "stats/prometheus.go: SnapshotToPrometheus", "monitor/monitor.go: receiveMetrics"])
p("C128", "The same for measurements posted over HTTP",
  "If the goroutine of the HTTP listener that sends old batches is never delayed by more than D and requests consist of complete lines that fit a message, every line that the HTTP listener publishes was added to the batch by a request at most batch_max_age + 2 D earlier, and every line that a request adds is in a message published within that time. Hence, if a message takes at most N1 to the filter and from there at most N2 to the downsampler, clients post each measurement at most K after its time, and batch_max_age + 2 D + N1 + N2 + K is at most downsample_period, then every measurement reaches the downsampler at most a period late and not early, a downsampler that keeps its timer refuses none of them, and the rows of the archive reach InfluxDB within the bound of C123.",
  "every run of the HTTP listener (any interleaving of requests, clock ticks and wake-ups of the sender), every D, N1, N2, K, every configuration with a non-negative age, every rule list, every iteration of the downsampler",
  "It relates the timer of one goroutine, the lock it shares with the requests, and the period of another component; no test runs a listener and a downsampler together, let alone for all schedules.",
  ["listener/listener.go: oldBatchSender, handleHTTPWrite, readHTTPBody, maybeSendBatch, sendBatch", "batch/batch.go: Age, ReadFrom, Append", "filter/worker.go: processBatch", "downsampler/assigner.go: Update", "downsampler/downsampler.go: worker"])
p("C129", "What a crash can lose is recent",
  "Whenever a process is killed, the data that is lost with it is recent. UDP listener: all datagrams but the last few have been handed to NATS, whole and in order, and each of those that are lost was read less than batch_max_age before the listener last looked at the clock. HTTP listener: each line posted so far has been published or was posted at most batch_max_age + 2 D before (D bounds the delay of the goroutine that sends old batches). Writer: each message taken up by a promptly scheduled worker is in a batch that it has started to send or was taken up at most batch_max_age + 1 s before. Downsampler: each measurement taken up on time is in a row that was published, together with all the others of its window, or has a time less than two periods before the downsampler last looked at the clock.",
  "every crash point: every sequence of datagrams and clock readings cut off anywhere, every run of the HTTP listener, every prompt schedule of a writer's worker, every sequence of iterations of a downsampler; every configuration with non-negative ages",
  "It is about every moment at which a process can be killed; tests stop components in an orderly way after they have caught up.",
  ["listener/listener.go: listenUDP, oldBatchSender, handleHTTPWrite, shouldSend, sendBatch", "batch/batch.go: Age, Reset", "writer/writer.go: worker, shouldSend", "downsampler/downsampler.go: worker", "downsampler/assigner.go: Bytes"])
p("C130", "Everything sent to InfluxDB was received not long before",
  "Every batch that a promptly scheduled worker of the writer starts to send at a time u is put together from texts that the filter's rules make of lines that clients sent, and each of those lines was read (UDP) or added to the batch by a request (HTTP) before u and at most batch_max_age of the listener + G (UDP: the listener looks at the clock within G of reading and at least every G) or 2 D (HTTP: the goroutine that sends old batches is never delayed by more than D) + N1 + N2 + batch_max_age of the writer + 1 s before u, where N1 and N2 bound the time a message takes to the filter and from there to the writer. The body of every request the writer makes, first or retry, is part of a batch that it had begun to send by then (retries end writer_retry_timeout after queueing, C39). Nothing is sent that no client sent, and nothing lies around in a buffer longer than the limits say, however the lines are batched on the way.",
  "every sequence of datagrams or schedule of requests, every rule list, every assignment of lines to messages that results, every schedule of the writer's worker within the bounds, every batch",
  "The age of what is sent is the sum of what three components' buffers allow, over all ways in which lines are batched on the way; a test sees the buffers of one component and one schedule.",
  ["listener/listener.go: listenUDP, oldBatchSender, maybeSendBatch, sendBatch", "filter/worker.go: processBatch", "writer/writer.go: worker, shouldSend"])
with open('/verif/properties.jsonl','w') as f:
    for x in P: f.write(json.dumps(x)+"\n")
print(len(P))
