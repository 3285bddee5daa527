{
 "C02": {
  "status": "partial",
  "note": "The documented limit is false of the code (off by one); refuted by C02_chunk_limit_violated; the true bound chunkSize+1 is proved."
 },
 "C04": {
  "status": "partial",
  "note": "Exactness is false for inputs of 20 or more digits (uint64 accumulator wraps); refuted; exact behaviour characterised for all inputs and exactness proved up to 19 digits."
 },
 "C17": {
  "status": "partial",
  "note": "False in general of the code (lines of <=24 bytes, short timestamps, -1 are not checked): three refutations; the exact timestamp judged by is characterised for every line, and the window is proved for lines with a 19-character timestamp; acceptance of in-window and timestamp-less lines is proved in full."
 },
 "C18": {
  "status": "partial",
  "note": "False of the code: names are compared by 32-bit FNV-1 hash; refuted with a real collision; exact hash characterisation, completeness, and soundness away from collisions proved."
 },
 "C20": {
  "status": "partial",
  "note": "False of the code: SortTags overwrites the memory the parsed tags alias; refuted (missed match and wrong match). Proved: routing as parsed when not rewritten in place, for uniform layouts, and for regex rules."
 },
 "C21": {
  "status": "partial",
  "note": "False for lines without fields (newline moves) and for values with backslash-backslash-quote; refuted. Exact output for every line; meaning preserved for all lines with fields and no double backslash; canonical form and idempotence."
 },
 "C50": {
  "status": "partial",
  "note": "False of the code for bodies without trailing newline (no EnsureNewline on the HTTP paths); refuted by C50_bodies_merged. Proved for complete bodies: in every interleaving of concurrent requests the published lines are an interleaving of the requests' lines."
 },
 "C51": {
  "status": "partial",
  "note": "False of the code by one byte (splitter off by one); refuted by C51_http_message_too_large; bound 1 MiB + 1 proved for every history."
 },
 "C52": {
  "status": "partial",
  "note": "Proved for every schedule given a bound D on lock/timer delay (age <= batch_max_age + 2D; exact for D = 0). The lock is held while a request body is read, so a slow body makes D unbounded: C52_delay_reached."
 },
 "C28": {
  "status": "partial",
  "note": "False of the code when samples differ by 2^63 or more (int64 subtraction wraps): C28_average_outside_samples. Proved for all samples whose spread is below 2^63."
 },
 "C29": {
  "status": "partial",
  "note": "False of the code (C29_not_the_mean: 0,1,2 is emitted as 0). Proved: the error is at most (n-1)/2 for n samples, and that bound is attained for every n."
 },
 "C30": {
  "status": "partial",
  "note": "False of the code when a field changes between quoted string and bare token (kind of the first sample is kept: C30_kind_of_first_sample); last value proved when the kind does not change."
 },
 "C31": {
  "status": "partial",
  "note": "False of the code: a quoted string that reads as an integer is accepted for an integer field (C31_quoted_integer_accepted). All other mismatches are proved to be reported and ignored."
 },
 "C32": {
  "status": "partial",
  "note": "False of the code: fields read before the error in a line of a known series are kept (C32_invalid_line_counted). Proved: invalid lines of new series, and lines whose first field is malformed, change nothing, and other series are never affected."
 },
 "C43": {
  "status": "partial",
  "note": "False of the code: a chunk whose first write is rejected with 4xx is handed to the retry worker and sent once more (C43_rejected_batch_resent). Proved: after a permanent failure of a retry it is never sent again, and at most two rejections."
 },
 "C44": {
  "status": "partial",
  "note": "False of the code: a batch cut into several POSTs counts once and an empty batch counts although nothing is sent (C44_undercounts_split_batch, C44_overcounts_empty_batch, C44_not_as_documented). Proved: exact meaning of all three counters (C44_counters_exact) and the documented meaning when every batch is non-empty, fits one POST and no report is pending or lost."
 },
 "C54": {
  "status": "partial",
  "note": "False of the code for lines with unsorted labels received before an earlier scrape (rendering overwrites the memory the labels live in): C54_not_for_unsorted_labels. Proved for all other histories; C72 shows components never send such lines."
 },
 "C55": {
  "status": "partial",
  "note": "False of the code because a malformed line may crash the monitor (C55_malformed_message_may_crash). Proved: a message with an invalid line is ignored or crashes, and exactly when (C55_ignored_or_crash_exactly)."
 },
 "C56": {
  "status": "partial",
  "note": "False of the code: foo{a=\"b\"} panics (C56_parser_can_panic, C56_monitor_can_crash). Proved: exactly which lines panic (C56_panics_exactly) and no crash without such lines."
 },
 "C57": {
  "status": "partial",
  "note": "False of the code for unsorted labels of different lengths (C57_scraping_can_change_what_is_served); proved when labels are listed in ascending order, as components do (C72)."
 },
 "C62": {
  "status": "partial",
  "note": "True for filters up to patterns that do not compile (C62_validated_filter, C62_panics_exactly). False for writers, whose tags are not validated (C62_validated_writer_can_panic)."
 },
 "C63": {
  "status": "partial",
  "note": "Proved for every setting except rules. Rules of the given file are completed with keys of the common file's rules at the same place (C63_rules_can_mix); exactly characterised in C63_rules_partial. TOML decoding itself (BurntSushi/toml v0.3.1, outside the repository) is modelled from its documented behaviour and source as remembered."
 },
 "C65": {
  "note": "Delivery is stated by the subject the filter chooses and the text it emits (C15, C20, C21); for lines with tags in key order that is byte for byte the line and the first matching rule (C65_lines_byte_for_byte). NATS is represented by hypotheses on what arrives: in order, in any order (several workers), or with losses."
 },
 "C76": {
  "status": "partial",
  "note": "Proved for every component, failure and schedule if the number of workers is not negative; a writer with a negative number, which the configuration accepts, panics (refuted)."
 },
 "C79": {
  "status": "partial",
  "note": "Proved for filter, writer, downsampler and monitor. False of the listeners: an unreachable NATS leaves the probe port open, a failing SetReadBuffer leaves the UDP socket bound (both refuted by schedules); all other failures of StartListener are proved clean."
 },
 "C80": {
  "status": "partial",
  "note": "Proved in full for filter, writer and downsampler. False of the listeners and the monitor (ready set by a goroutine that may run after Stop, and before the HTTP port is bound): refuted by schedules; proved for the UDP listener until Stop closes the stop channel. The filter does not flush its subscription (C80_filter_not_flushed)."
 },
 "C81": {
  "status": "proved",
  "note": "Also shows that a filter with no workers starts and says it is ready (C81_idle_filter)."
 },
 "C82": {
  "status": "partial",
  "note": "Lines in order is proved; exact bytes only for lines without %: the tap uses the line as a format string (C82_percent_garbled)."
 },
 "C83": {
  "status": "partial",
  "note": "The outcome part is proved in full. The db parameter is right exactly if the name contains none of # % & + ; (C83_database_exactly), because the name is not escaped (C83_wrong_database)."
 },
 "C84": {
  "status": "partial",
  "note": "Proved: whole body accepted or read_errors counted. False: the answer is 204 even when the body is lost (C84_success_although_lost)."
 },
 "C85": {
  "status": "proved",
  "note": "For readings that fit an int64 and subjects that are distinct and plain."
 },
 "C86": {
  "status": "proved",
  "note": "After Stop a callback may stay blocked for ever (C86_callback_blocked_after_stop)."
 },
 "C91": {
  "status": "partial",
  "note": "Holds if the body of a request to InfluxDB is no longer read when http.Client.Do returns; net/http does not promise that, and without it C91_body_race exhibits the race with the writer's batch. Libraries are taken to synchronise themselves. The bytes of messages and of chunks to be retried, which are handed over through channels, are in C91_filter_messages, C91_writer_messages and C91_downsampler_messages."
 },
 "C92": {
  "status": "partial",
  "note": "False of the HTTP listener (C92_http_unbounded): a request with a body of n bytes makes it keep n bytes for ever; there the bound is only in terms of the most it ever held."
 },
 "C94": {
  "status": "partial",
  "note": "False at the limit: exactly 10% (as shown) is not reported (C94_ten_percent_not_reported); regressions by more than the limit are, and nothing else is."
 },
 "C96": {
  "status": "partial",
  "note": "False of the code: a line with unsorted tags and no fields is published with its newline in the middle and its tail is put in front of the next line of the message, possibly another client's; refuted. Proved: if every line of the message has fields or sorted tags, each published message consists of exactly the texts of the accepted lines, each a complete line."
 },
 "C103": {
  "status": "partial",
  "note": "False of the code: samples of opposite sign beyond half the largest float64 overflow; 1.7e308 and -1.7e308 are emitted as -Inf (C103_overflow), so the full property is refuted. Proved: if no sample is larger in magnitude than half the largest float64 (and there are fewer than 2^62), the emitted number is finite and within the range of the samples."
 },
 "C106": {
  "status": "partial",
  "note": "False of the code with more than one filter worker (the default is 8): two workers take consecutive messages and the second is faster, so that a writer writes a client's second line first (C106_workers_overtake). Proved: with one filter process with one worker (any number of listeners, writers, writer workers, downsamplers) the order is kept; with any number of workers, crashes and any order in NATS, the lines of one listener message stay together and in their order and no message is used twice (C106_lines_of_a_message_in_order)."
 },
 "C110": {
  "status": "partial",
  "note": "False of the code in two ways: a retry can write an old value of a field of a point over a newer one that was accepted meanwhile (C110_old_value_may_win), and a line without timestamp whose first write was handled but not answered is stored as two points (C110_untimed_line_twice). Proved: nothing but what received lines say is ever stored; if lines have timestamps and no two lines give one field of one point different values, accepted chunks are stored for good and the final content is as if each line had been written once in order, whatever is sent again or handled late; without failures the claim holds for all lines with timestamps."
 },
 "C116": {
  "status": "partial",
  "note": "False of the code: a rule subject or junk subject equal to the filters' own nats_subject is accepted, and then the lines that belong to it circulate. Proved: such lines are, exactly as often as they were sent, always still with the filters or on the way to them (C116_circulates), so the work is never done (C116_never_done), and under every fair schedule without loss the filters process messages for ever (C116_busy_forever; in terms of the files C116_files_busy_forever), shown for a concrete accepted set of files and a schedule. Lines with a timestamp circulate until they leave the time window; those without one for ever. What holds (C116_rests_partial): if no rule, junk or downsampler output subject is the filters' own, every fair schedule comes to rest, whatever fails or is lost."
 },
 "C117": {
  "status": "partial",
  "note": "False of the code: a row carries the time of the (exclusive) end of its window, so a second level aggregates it in the window that begins there. C117_not_of_its_window exhibits a deployment in which the value for a window of the second level lacks a measurement of this window, which is in the next; C117_windows_shifted proves in general that, when the second period is a multiple of the first, the window [W-Q, W) holds exactly the measurements of [W-Q-P, W-P). Proved instead, for any number of levels, is what the code does: each level summarises what the one before it made, every row once, and InfluxDB is sent exactly the result (C117_chain_partial, and C117_eventually_partial for fair schedules), for measurements whose fields are always or never strings (a field that is first a number and then a string is emitted unquoted and may be unreadable for the next level), when no row is larger than a message."
 }
}