{
 "claims": [
  {
   "property": "C01",
   "status": "proved",
   "theorems": [
    "Spout.C01_split_conserves_bytes",
    "Spout.C01_exhausted_stays_exhausted",
    "Spout.C01_chunkSize_zero_diverges"
   ],
   "note": ""
  },
  {
   "property": "C02",
   "status": "partial",
   "theorems": [
    "Spout.C02_chunk_limit_violated",
    "Spout.C02_chunk_limit_partial"
   ],
   "note": "The documented limit is false of the code (off by one); refuted by C02_chunk_limit_violated; the true bound chunkSize+1 is proved."
  },
  {
   "property": "C03",
   "status": "proved",
   "theorems": [
    "Spout.C03_chunks_end_at_lines",
    "Spout.C03_short_lines_never_cut"
   ],
   "note": ""
  },
  {
   "property": "C04",
   "status": "partial",
   "theorems": [
    "Spout.C04_toInt_accepts_overflow",
    "Spout.C04_toInt_accepts_all_decimals",
    "Spout.C04_toInt_exact_partial",
    "Spout.C04_toInt_exact_mod_2_64",
    "Spout.C04_rejections"
   ],
   "note": "Exactness is false for inputs of 20 or more digits (uint64 accumulator wraps); refuted; exact behaviour characterised for all inputs and exactness proved up to 19 digits."
  },
  {
   "property": "C05",
   "status": "proved",
   "theorems": [
    "Spout.C05_print_parse_roundtrip",
    "Spout.C05_print_is_decimal"
   ],
   "note": ""
  },
  {
   "property": "C06",
   "status": "proved",
   "theorems": [
    "Spout.C06_timestamp_found",
    "Spout.C06_timestamp_absent",
    "Spout.C06_timestamp_exact",
    "Spout.C06_nanos_exact",
    "Spout.C06_nanos_sound",
    "Spout.C06_nanos_full_length",
    "Spout.C06_nanos_absent",
    "Spout.C06_nanos_short_missed"
   ],
   "note": ""
  },
  {
   "property": "C07",
   "status": "proved",
   "theorems": [
    "Spout.C07_scaling_exact"
   ],
   "note": ""
  },
  {
   "property": "C08",
   "status": "proved",
   "theorems": [
    "Spout.C08_conversion",
    "Spout.C08_converted_has_scaled_ts",
    "Spout.C08_request",
    "Spout.C08_request_nanos"
   ],
   "note": ""
  },
  {
   "property": "C09",
   "status": "proved",
   "theorems": [
    "Spout.C09_tag_escape_roundtrip",
    "Spout.C09_escaped_has_no_bare_delimiter"
   ],
   "note": ""
  },
  {
   "property": "C10",
   "status": "proved",
   "theorems": [
    "Spout.C10_measurement_escape_roundtrip"
   ],
   "note": ""
  },
  {
   "property": "C11",
   "status": "proved",
   "theorems": [
    "Spout.C11_quoted_string_roundtrip"
   ],
   "note": ""
  },
  {
   "property": "C12",
   "status": "proved",
   "theorems": [
    "Spout.C12_token_cuts_at_first_delimiter",
    "Spout.C12_token_single",
    "Spout.C12_token_unescapes",
    "Spout.C12_leading_delimiter_ignored"
   ],
   "note": ""
  },
  {
   "property": "C13",
   "status": "proved",
   "theorems": [
    "Spout.C13_parse_inverts_serialise",
    "Spout.C13_parse_inverts_serialise_no_fields",
    "Spout.C13_conditions_needed"
   ],
   "note": ""
  },
  {
   "property": "C14",
   "status": "proved",
   "theorems": [
    "Spout.C14_downsampler_never_panics",
    "Spout.C14_parsers_never_panic"
   ],
   "note": ""
  },
  {
   "property": "C15",
   "status": "proved",
   "theorems": [
    "Spout.C15_first_match",
    "Spout.C15_no_match",
    "Spout.C15_lookup_total"
   ],
   "note": ""
  },
  {
   "property": "C16",
   "status": "proved",
   "theorems": [
    "Spout.C16_one_message",
    "Spout.C16_text_nonempty",
    "Spout.C16_no_line_missed",
    "Spout.C16_lines_are_lines",
    "Spout.C16_history"
   ],
   "note": ""
  },
  {
   "property": "C17",
   "status": "partial",
   "theorems": [
    "Spout.C17_short_line_not_checked",
    "Spout.C17_minus_one_accepted",
    "Spout.C17_short_timestamp_not_checked",
    "Spout.C17_judged_timestamp",
    "Spout.C17_window_partial",
    "Spout.C17_no_timestamp_accepted",
    "Spout.C17_in_window_accepted",
    "Spout.C17_old_line_not_forwarded_partial",
    "Spout.C17_recent_line_forwarded"
   ],
   "note": "False in general of the code (lines of <=24 bytes, short timestamps, -1 are not checked): three refutations; the exact timestamp judged by is characterised for every line, and the window is proved for lines with a 19-character timestamp; acceptance of in-window and timestamp-less lines is proved in full."
  },
  {
   "property": "C18",
   "status": "partial",
   "theorems": [
    "Spout.C18_basic_rule_collision",
    "Spout.C18_basic_rule_exact_partial",
    "Spout.C18_basic_rule_complete",
    "Spout.C18_basic_rule_sound_without_collision",
    "Spout.C18_no_collision_last_byte"
   ],
   "note": "False of the code: names are compared by 32-bit FNV-1 hash; refuted with a real collision; exact hash characterisation, completeness, and soundness away from collisions proved."
  },
  {
   "property": "C19",
   "status": "proved",
   "theorems": [
    "Spout.C19_rule_exact",
    "Spout.C19_written_line",
    "Spout.C19_subset_exact",
    "Spout.C19_order_irrelevant"
   ],
   "note": ""
  },
  {
   "property": "C20",
   "status": "partial",
   "theorems": [
    "Spout.C20_routing_depends_on_order",
    "Spout.C20_wrong_subject",
    "Spout.C20_routes_as_parsed_partial",
    "Spout.C20_order_irrelevant_partial",
    "Spout.C20_uniform_layout_partial",
    "Spout.C20_regex_order_irrelevant"
   ],
   "note": "False of the code: SortTags overwrites the memory the parsed tags alias; refuted (missed match and wrong match). Proved: routing as parsed when not rewritten in place, for uniform layouts, and for regex rules."
  },
  {
   "property": "C21",
   "status": "partial",
   "theorems": [
    "Spout.C21_order_canonical",
    "Spout.C21_no_double_backslash_partial",
    "Spout.C21_idempotent",
    "Spout.C21_sorting_moves_newline",
    "Spout.C21_sorting_changes_value",
    "Spout.C21_sorted_unchanged",
    "Spout.C21_unsorted_output",
    "Spout.C21_sorting_preserves_meaning_partial"
   ],
   "note": "False for lines without fields (newline moves) and for values with backslash-backslash-quote; refuted. Exact output for every line; meaning preserved for all lines with fields and no double backslash; canonical form and idempotence."
  },
  {
   "property": "C22",
   "status": "proved",
   "theorems": [
    "Spout.C22_counters"
   ],
   "note": ""
  },
  {
   "property": "C23",
   "status": "proved",
   "theorems": [
    "Spout.C23_regex_complement",
    "Spout.C23_pair_total"
   ],
   "note": ""
  },
  {
   "property": "C24",
   "status": "proved",
   "theorems": [
    "Spout.C24_code_refines_spec",
    "Spout.C24_update_is_lines",
    "Spout.C24_windows_tile"
   ],
   "note": ""
  },
  {
   "property": "C25",
   "status": "proved",
   "theorems": [
    "Spout.C25_rejected_iff_outside"
   ],
   "note": ""
  },
  {
   "property": "C26",
   "status": "proved",
   "theorems": [
    "Spout.C26_emitted_in_order",
    "Spout.C26_emitted_when_due",
    "Spout.C26_timer"
   ],
   "note": ""
  },
  {
   "property": "C27",
   "status": "proved",
   "theorems": [
    "Spout.C27_lines_partitioned"
   ],
   "note": ""
  },
  {
   "property": "C28",
   "status": "partial",
   "theorems": [
    "Spout.C28_average_outside_samples",
    "Spout.C28_average_within_samples_partial"
   ],
   "note": "False of the code when samples differ by 2^63 or more (int64 subtraction wraps): C28_average_outside_samples. Proved for all samples whose spread is below 2^63."
  },
  {
   "property": "C29",
   "status": "partial",
   "theorems": [
    "Spout.C29_error_bound_tight",
    "Spout.C29_not_the_mean",
    "Spout.C29_error_bound_partial"
   ],
   "note": "False of the code (C29_not_the_mean: 0,1,2 is emitted as 0). Proved: the error is at most (n-1)/2 for n samples, and that bound is attained for every n."
  },
  {
   "property": "C30",
   "status": "partial",
   "theorems": [
    "Spout.C30_kind_of_first_sample",
    "Spout.C30_last_value_partial"
   ],
   "note": "False of the code when a field changes between quoted string and bare token (kind of the first sample is kept: C30_kind_of_first_sample); last value proved when the kind does not change."
  },
  {
   "property": "C31",
   "status": "partial",
   "theorems": [
    "Spout.C31_quoted_integer_accepted",
    "Spout.C31_mismatch_reported_partial",
    "Spout.C31_mismatch_ignored",
    "Spout.C31_integer_field"
   ],
   "note": "False of the code: a quoted string that reads as an integer is accepted for an integer field (C31_quoted_integer_accepted). All other mismatches are proved to be reported and ignored."
  },
  {
   "property": "C32",
   "status": "partial",
   "theorems": [
    "Spout.C32_invalid_line_counted",
    "Spout.C32_invalid_line_ignored_partial"
   ],
   "note": "False of the code: fields read before the error in a line of a known series are kept (C32_invalid_line_counted). Proved: invalid lines of new series, and lines whose first field is malformed, change nothing, and other series are never affected."
  },
  {
   "property": "C33",
   "status": "proved",
   "theorems": [
    "Spout.C33_window_output",
    "Spout.C33_line_read",
    "Spout.C33_all_kept",
    "Spout.C33_single_field"
   ],
   "note": ""
  },
  {
   "property": "C34",
   "status": "proved",
   "theorems": [
    "Spout.C34_every_byte_once",
    "Spout.C34_every_matching_line_once",
    "Spout.C34_lost_on_stop"
   ],
   "note": ""
  },
  {
   "property": "C35",
   "status": "proved",
   "theorems": [
    "Spout.C35_waiting_below_limits",
    "Spout.C35_sent_at_limit",
    "Spout.C35_limit_reached_sends"
   ],
   "note": ""
  },
  {
   "property": "C36",
   "status": "proved",
   "theorems": [
    "Spout.C36_rules_select_lines"
   ],
   "note": ""
  },
  {
   "property": "C37",
   "status": "proved",
   "theorems": [
    "Spout.C37_retry_queue_bounded",
    "Spout.C37_retry_memory"
   ],
   "note": ""
  },
  {
   "property": "C38",
   "status": "proved",
   "theorems": [
    "Spout.C38_oldest_discarded",
    "Spout.C38_only_to_make_room"
   ],
   "note": ""
  },
  {
   "property": "C39",
   "status": "proved",
   "theorems": [
    "Spout.C39_expired_never_retried",
    "Spout.C39_dropped_only_when_expired"
   ],
   "note": ""
  },
  {
   "property": "C40",
   "status": "proved",
   "theorems": [
    "Spout.C40_removed",
    "Spout.C40_kept",
    "Spout.C40_rotation"
   ],
   "note": ""
  },
  {
   "property": "C41",
   "status": "proved",
   "theorems": [
    "Spout.C41_rate_limited",
    "Spout.C41_one_at_a_time"
   ],
   "note": ""
  },
  {
   "property": "C42",
   "status": "proved",
   "theorems": [
    "Spout.C42_exactly_one_status",
    "Spout.C42_on_its_way",
    "Spout.C42_same_data",
    "Spout.C42_numbering",
    "Spout.C42_written_once"
   ],
   "note": ""
  },
  {
   "property": "C43",
   "status": "partial",
   "theorems": [
    "Spout.C43_rejected_batch_resent",
    "Spout.C43_not_resent_partial",
    "Spout.C43_at_most_two_rejections"
   ],
   "note": "False of the code: a chunk whose first write is rejected with 4xx is handed to the retry worker and sent once more (C43_rejected_batch_resent). Proved: after a permanent failure of a retry it is never sent again, and at most two rejections."
  },
  {
   "property": "C44",
   "status": "partial",
   "theorems": [
    "Spout.C44_counters_exact",
    "Spout.C44_reports_lost_only_when_full",
    "Spout.C44_undercounts_split_batch",
    "Spout.C44_overcounts_empty_batch",
    "Spout.C44_not_as_documented",
    "Spout.C44_write_requests_partial"
   ],
   "note": "False of the code: a batch cut into several POSTs counts once and an empty batch counts although nothing is sent (C44_undercounts_split_batch, C44_overcounts_empty_batch, C44_not_as_documented). Proved: exact meaning of all three counters (C44_counters_exact) and the documented meaning when every batch is non-empty, fits one POST and no report is pending or lost."
  },
  {
   "property": "C45",
   "status": "proved",
   "theorems": [
    "Spout.C45_no_deadlock",
    "Spout.C45_stop_completes"
   ],
   "note": ""
  },
  {
   "property": "C46",
   "status": "proved",
   "theorems": [
    "Spout.C46_batch_is_a_log",
    "Spout.C46_read_room",
    "Spout.C46_room_below_datagram"
   ],
   "note": ""
  },
  {
   "property": "C47",
   "status": "proved",
   "theorems": [
    "Spout.C47_room_for_datagram"
   ],
   "note": ""
  },
  {
   "property": "C48",
   "status": "proved",
   "theorems": [
    "Spout.C48_udp_stream"
   ],
   "note": ""
  },
  {
   "property": "C49",
   "status": "proved",
   "theorems": [
    "Spout.C49_udp_message_size"
   ],
   "note": ""
  },
  {
   "property": "C50",
   "status": "partial",
   "theorems": [
    "Spout.C50_bodies_merged",
    "Spout.C50_lines_kept_apart_partial",
    "Spout.C50_nanos_request",
    "Spout.C50_precision_request",
    "Spout.C50_history_lines_partial"
   ],
   "note": "False of the code for bodies without trailing newline (no EnsureNewline on the HTTP paths); refuted by C50_bodies_merged. Proved for complete bodies: in every interleaving of concurrent requests the published lines are an interleaving of the requests' lines."
  },
  {
   "property": "C51",
   "status": "partial",
   "theorems": [
    "Spout.C51_downsampler_message_size_partial",
    "Spout.C51_http_message_too_large",
    "Spout.C51_http_message_size_partial",
    "Spout.C51_http_whole_lines"
   ],
   "note": "False of the code by one byte (splitter off by one); refuted by C51_http_message_too_large; bound 1 MiB + 1 proved for every history."
  },
  {
   "property": "C52",
   "status": "partial",
   "theorems": [
    "Spout.C52_age_bound_partial",
    "Spout.C52_ideal",
    "Spout.C52_delay_reached",
    "Spout.C52_lines_not_empty"
   ],
   "note": "Proved for every schedule given a bound D on lock/timer delay (age <= batch_max_age + 2D; exact for D = 0). The lock is held while a request body is read, so a slow body makes D unbounded: C52_delay_reached."
  },
  {
   "property": "C53",
   "status": "proved",
   "theorems": [
    "Spout.Prom.C53_parse_exact",
    "Spout.Prom.C53_line_unambiguous",
    "Spout.Prom.C53_render_parse"
   ],
   "note": ""
  },
  {
   "property": "C54",
   "status": "partial",
   "theorems": [
    "Spout.Prom.C54_text_determined",
    "Spout.Prom.C54_serves_latest_partial",
    "Spout.Prom.C54_received_determined",
    "Spout.Prom.C54_not_for_unsorted_labels"
   ],
   "note": "False of the code for lines with unsorted labels received before an earlier scrape (rendering overwrites the memory the labels live in): C54_not_for_unsorted_labels. Proved for all other histories; C72 shows components never send such lines."
  },
  {
   "property": "C55",
   "status": "partial",
   "theorems": [
    "Spout.Prom.C55_malformed_message_may_crash",
    "Spout.Prom.C55_malformed_message_ignored_partial",
    "Spout.Prom.C55_ignored_or_crash_exactly"
   ],
   "note": "False of the code because a malformed line may crash the monitor (C55_malformed_message_may_crash). Proved: a message with an invalid line is ignored or crashes, and exactly when (C55_ignored_or_crash_exactly)."
  },
  {
   "property": "C56",
   "status": "partial",
   "theorems": [
    "Spout.Prom.C56_parser_can_panic",
    "Spout.Prom.C56_monitor_can_crash",
    "Spout.Prom.C56_panics_exactly",
    "Spout.Prom.C56_no_crash_partial",
    "Spout.Prom.C56_no_brace_no_panic"
   ],
   "note": "False of the code: foo{a=\"b\"} panics (C56_parser_can_panic, C56_monitor_can_crash). Proved: exactly which lines panic (C56_panics_exactly) and no crash without such lines."
  },
  {
   "property": "C57",
   "status": "partial",
   "theorems": [
    "Spout.Prom.C57_scraping_can_change_what_is_served",
    "Spout.Prom.C57_scrapes_repeat_partial"
   ],
   "note": "False of the code for unsorted labels of different lengths (C57_scraping_can_change_what_is_served); proved when labels are listed in ascending order, as components do (C72)."
  },
  {
   "property": "C58",
   "status": "proved",
   "theorems": [
    "Spout.Counters.C58_calls_linearizable",
    "Spout.Counters.C58_no_increment_lost",
    "Spout.Counters.C58_exact_when_quiet",
    "Spout.Counters.C58_distinct_results",
    "Spout.Counters.C58_never_backwards",
    "Spout.Counters.C58_calls_proceed"
   ],
   "note": ""
  },
  {
   "property": "C59",
   "status": "proved",
   "theorems": [
    "Spout.Counters.C59_largest_when_quiet",
    "Spout.Counters.C59_at_least_returned",
    "Spout.Counters.C59_bounded_retries",
    "Spout.Counters.C59_result_is_a_value_of_the_counter"
   ],
   "note": ""
  },
  {
   "property": "C60",
   "status": "proved",
   "theorems": [
    "Spout.Counters.C60_snapshot_values",
    "Spout.Counters.C60_snapshot_bounds",
    "Spout.Counters.C60_not_one_moment"
   ],
   "note": ""
  },
  {
   "property": "C61",
   "status": "proved",
   "theorems": [
    "Spout.Conf.C61_validate_exactly",
    "Spout.Conf.C61_writer_rejects_tags_rules",
    "Spout.Conf.C61_negative_period_accepted",
    "Spout.Conf.C61_listener_messages_fit"
   ],
   "note": ""
  },
  {
   "property": "C62",
   "status": "partial",
   "theorems": [
    "Spout.Conf.C62_panics_exactly",
    "Spout.Conf.C62_validated_filter",
    "Spout.Conf.C62_validated_writer_can_panic",
    "Spout.Conf.C62_validated_writer_partial"
   ],
   "note": "True for filters up to patterns that do not compile (C62_validated_filter, C62_panics_exactly). False for writers, whose tags are not validated (C62_validated_writer_can_panic)."
  },
  {
   "property": "C63",
   "status": "partial",
   "theorems": [
    "Spout.Conf.C63_plain_settings",
    "Spout.Conf.C63_dynamic_settings",
    "Spout.Conf.C63_loaded_acceptable",
    "Spout.Conf.C63_bad_common_file",
    "Spout.Conf.C63_missing_file",
    "Spout.Conf.C63_rules_partial",
    "Spout.Conf.C63_loaded_exactly",
    "Spout.Conf.C63_rules_can_mix",
    "Spout.Conf.C63_default_name",
    "Spout.Conf.C63_default_name_no_extension"
   ],
   "note": "Proved for every setting except rules. Rules of the given file are completed with keys of the common file's rules at the same place (C63_rules_can_mix); exactly characterised in C63_rules_partial. TOML decoding itself (BurntSushi/toml v0.3.1, outside the repository) is modelled from its documented behaviour and source as remembered."
  },
  {
   "property": "C64",
   "status": "proved",
   "theorems": [
    "Spout.Probes.C64_answers",
    "Spout.Probes.C64_last_state",
    "Spout.Probes.C64_disabled",
    "Spout.Probes.C64_closed"
   ],
   "note": ""
  },
  {
   "property": "C65",
   "status": "proved",
   "theorems": [
    "Spout.Delivery.C65_in_order",
    "Spout.Delivery.C65_flushed",
    "Spout.Delivery.C65_lines_byte_for_byte",
    "Spout.Delivery.C65_no_resend",
    "Spout.Delivery.C65_never_twice",
    "Spout.Delivery.C65_any_number_of_workers"
   ],
   "note": "Delivery is stated by the subject the filter chooses and the text it emits (C15, C20, C21); for lines with tags in key order that is byte for byte the line and the first matching rule (C65_lines_byte_for_byte). NATS is represented by hypotheses on what arrives: in order, in any order (several workers), or with losses."
  },
  {
   "property": "C66",
   "status": "proved",
   "theorems": [
    "Spout.C66_http_counters",
    "Spout.C66_request_counted",
    "Spout.C66_converted_request",
    "Spout.C66_udp_counters"
   ],
   "note": ""
  },
  {
   "property": "C67",
   "status": "proved",
   "theorems": [
    "Spout.C67_round_up"
   ],
   "note": ""
  },
  {
   "property": "C68",
   "status": "proved",
   "theorems": [
    "Spout.C68_downsampler_stream"
   ],
   "note": ""
  },
  {
   "property": "C69",
   "status": "proved",
   "theorems": [
    "Spout.C69_timer",
    "Spout.C69_age_bound",
    "Spout.C69_sent_in_time"
   ],
   "note": ""
  },
  {
   "property": "C70",
   "status": "proved",
   "theorems": [
    "Spout.C70_sizes",
    "Spout.C70_whole_lines"
   ],
   "note": ""
  },
  {
   "property": "C71",
   "status": "proved",
   "theorems": [
    "Spout.C71_retries_timely"
   ],
   "note": ""
  },
  {
   "property": "C72",
   "status": "proved",
   "theorems": [
    "Spout.Prom.C72_component_lines_ordered",
    "Spout.Prom.C72_components_never_crash_the_monitor",
    "Spout.Prom.C72_component_counters_are_served",
    "Spout.Prom.C72_standard_labels_sendable"
   ],
   "note": ""
  },
  {
   "property": "C73",
   "status": "proved",
   "theorems": [
    "Spout.Counters.C73_names_have_own_counters",
    "Spout.Counters.C73_named_snapshot"
   ],
   "note": ""
  },
  {
   "property": "C74",
   "status": "proved",
   "theorems": [
    "Spout.Prom.C74_listener_statistics_shown",
    "Spout.Prom.C74_filter_statistics_shown",
    "Spout.Prom.C74_downsampler_statistics_shown",
    "Spout.Prom.C74_writer_statistics_shown",
    "Spout.Prom.C74_rules_sharing_a_subject"
   ],
   "note": ""
  },
  {
   "property": "C75",
   "status": "proved",
   "theorems": [
    "Spout.Conf.C75_rules_as_configured",
    "Spout.Conf.C75_unknown_type_is_error",
    "Spout.Conf.C75_first_configured_match"
   ],
   "note": ""
  },
  {
   "property": "C76",
   "status": "partial",
   "theorems": [
    "Spout.Lifecycle.C76_no_panic_partial",
    "Spout.Lifecycle.C76_negative_workers_panic"
   ],
   "note": "Proved for every component, failure and schedule if the number of workers is not negative; a writer with a negative number, which the configuration accepts, panics (refuted)."
  },
  {
   "property": "C77",
   "status": "proved",
   "theorems": [
    "Spout.Lifecycle.C77_start_returns",
    "Spout.Lifecycle.C77_stop_returns",
    "Spout.Lifecycle.C77_failed_start_returns"
   ],
   "note": ""
  },
  {
   "property": "C78",
   "status": "proved",
   "theorems": [
    "Spout.Lifecycle.C78_stopped",
    "Spout.Lifecycle.C78_unsubscribed_first",
    "Spout.Lifecycle.C78_unsubscribed"
   ],
   "note": ""
  },
  {
   "property": "C79",
   "status": "partial",
   "theorems": [
    "Spout.Lifecycle.C79_failed_start_partial",
    "Spout.Lifecycle.C79_listener_leaks_probes",
    "Spout.Lifecycle.C79_listener_leaks_socket",
    "Spout.Lifecycle.C79_listener_partial"
   ],
   "note": "Proved for filter, writer, downsampler and monitor. False of the listeners: an unreachable NATS leaves the probe port open, a failing SetReadBuffer leaves the UDP socket bound (both refuted by schedules); all other failures of StartListener are proved clean."
  },
  {
   "property": "C80",
   "status": "partial",
   "theorems": [
    "Spout.Lifecycle.C80_filter_ready",
    "Spout.Lifecycle.C80_writer_ready",
    "Spout.Lifecycle.C80_downsampler_ready",
    "Spout.Lifecycle.C80_running_is_ready",
    "Spout.Lifecycle.C80_udp_ready_when_stopped",
    "Spout.Lifecycle.C80_http_ready_before_bound",
    "Spout.Lifecycle.C80_udp_ready_partial",
    "Spout.Lifecycle.C80_filter_not_flushed",
    "Spout.Lifecycle.C80_stopping_not_alive",
    "Spout.Lifecycle.C80_http_binds",
    "Spout.Lifecycle.C80_http_keeps_port"
   ],
   "note": "Proved in full for filter, writer and downsampler. False of the listeners and the monitor (ready set by a goroutine that may run after Stop, and before the HTTP port is bound): refuted by schedules; proved for the UDP listener until Stop closes the stop channel. The filter does not flush its subscription (C80_filter_not_flushed)."
  },
  {
   "property": "C81",
   "status": "proved",
   "theorems": [
    "Spout.Lifecycle.C81_mode_selects",
    "Spout.Lifecycle.C81_idle_filter"
   ],
   "note": "Also shows that a filter with no workers starts and says it is ready (C81_idle_filter)."
  },
  {
   "property": "C82",
   "status": "partial",
   "theorems": [
    "Spout.C82_lines_in_order",
    "Spout.C82_prints_matching_lines_partial",
    "Spout.C82_prints_everything_partial",
    "Spout.C82_percent_garbled"
   ],
   "note": "Lines in order is proved; exact bytes only for lines without %: the tap uses the line as a format string (C82_percent_garbled)."
  },
  {
   "property": "C83",
   "status": "partial",
   "theorems": [
    "Spout.C83_database_exactly",
    "Spout.C83_write_request_partial",
    "Spout.C83_outcome",
    "Spout.C83_wrong_database"
   ],
   "note": "The outcome part is proved in full. The db parameter is right exactly if the name contains none of # % & + ; (C83_database_exactly), because the name is not escaped (C83_wrong_database)."
  },
  {
   "property": "C84",
   "status": "partial",
   "theorems": [
    "Spout.C84_whole_body_or_counted_partial",
    "Spout.C84_success_although_lost"
   ],
   "note": "Proved: whole body accepted or read_errors counted. False: the answer is 204 even when the body is lost (C84_success_although_lost)."
  },
  {
   "property": "C85",
   "status": "proved",
   "theorems": [
    "Spout.Prom.C85_filter_drops_shown",
    "Spout.Prom.C85_downsampler_drops_shown",
    "Spout.Prom.C85_never_decreases"
   ],
   "note": "For readings that fit an int64 and subjects that are distinct and plain."
  },
  {
   "property": "C86",
   "status": "proved",
   "theorems": [
    "Spout.Pool.C86_nothing_lost_or_duplicated",
    "Spout.Pool.C86_each_message_once",
    "Spout.Pool.C86_one_worker_in_order",
    "Spout.Pool.C86_progress",
    "Spout.Pool.C86_waits_only_when_full",
    "Spout.Pool.C86_running_until_stop",
    "Spout.Pool.C86_everything_received",
    "Spout.Pool.C86_callback_blocked_after_stop"
   ],
   "note": "After Stop a callback may stay blocked for ever (C86_callback_blocked_after_stop)."
  },
  {
   "property": "C87",
   "status": "proved",
   "theorems": [
    "Spout.C87_stops_only_when_told"
   ],
   "note": ""
  },
  {
   "property": "C88",
   "status": "proved",
   "theorems": [
    "Spout.Deploy.C88_deployment",
    "Spout.Deploy.C88_deployment_exactly_once",
    "Spout.Deploy.C88_deployment_at_most_once",
    "Spout.Delivery.C88_every_line_in_one_place",
    "Spout.Delivery.C88_exactly_once",
    "Spout.Delivery.C88_at_most_once"
   ],
   "note": ""
  },
  {
   "property": "C89",
   "status": "proved",
   "theorems": [
    "Spout.C89_http_batches",
    "Spout.C89_udp_batches",
    "Spout.C89_udp_age",
    "Spout.C89_udp_delay"
   ],
   "note": ""
  },
  {
   "property": "C90",
   "status": "proved",
   "theorems": [
    "Spout.Delivery.C90_archive",
    "Spout.Deploy.C90_deployment"
   ],
   "note": ""
  },
  {
   "property": "C91",
   "status": "partial",
   "theorems": [
    "Spout.Handover.C91_filter_messages",
    "Spout.Handover.C91_writer_messages",
    "Spout.Handover.C91_downsampler_messages",
    "Spout.Sharing.C91_race_free_partial",
    "Spout.Sharing.C91_exclusive_partial",
    "Spout.Sharing.C91_body_race"
   ],
   "note": "Holds if the body of a request to InfluxDB is no longer read when http.Client.Do returns; net/http does not promise that, and without it C91_body_race exhibits the race with the writer's batch. Libraries are taken to synchronise themselves. The bytes of messages and of chunks to be retried, which are handed over through channels, are in C91_filter_messages, C91_writer_messages and C91_downsampler_messages."
  },
  {
   "property": "C92",
   "status": "partial",
   "theorems": [
    "Spout.C92_batch_memory",
    "Spout.C92_udp_memory",
    "Spout.C92_http_memory_partial",
    "Spout.C92_http_unbounded",
    "Spout.C92_writer_batch",
    "Spout.C92_retry_memory"
   ],
   "note": "False of the HTTP listener (C92_http_unbounded): a request with a body of n bytes makes it keep n bytes for ever; there the bound is only in terms of the most it ever held."
  },
  {
   "property": "C93",
   "status": "proved",
   "theorems": [
    "Spout.Lifecycle.C93_failure_reported",
    "Spout.Lifecycle.C93_failed_stays_failed",
    "Spout.Lifecycle.C93_port_taken_exits",
    "Spout.Lifecycle.C93_exits_only_if_port_taken",
    "Spout.Lifecycle.C93_never_exits",
    "Spout.Lifecycle.C93_udp_running",
    "Spout.Lifecycle.C93_http_running",
    "Spout.Lifecycle.C93_monitor_running"
   ],
   "note": ""
  },
  {
   "property": "C94",
   "status": "partial",
   "theorems": [
    "Spout.Bench.C94_regressions_found_partial",
    "Spout.Bench.C94_ten_percent_not_reported",
    "Spout.Bench.C94_unreadable_fails"
   ],
   "note": "False at the limit: exactly 10% (as shown) is not reported (C94_ten_percent_not_reported); regressions by more than the limit are, and nothing else is."
  },
  {
   "property": "C95",
   "status": "proved",
   "theorems": [
    "Spout.Deploy.C95_can_finish",
    "Spout.Deploy.C95_every_line_arrives"
   ],
   "note": ""
  },
  {
   "property": "C96",
   "status": "partial",
   "theorems": [
    "Spout.C96_stays_one_line",
    "Spout.C96_client_damages_others",
    "Spout.C96_lines_stay_lines_partial"
   ],
   "note": "False of the code: a line with unsorted tags and no fields is published with its newline in the middle and its tail is put in front of the next line of the message, possibly another client's; refuted. Proved: if every line of the message has fields or sorted tags, each published message consists of exactly the texts of the accepted lines, each a complete line."
  },
  {
   "property": "C97",
   "status": "proved",
   "theorems": [
    "Spout.Deploy.C97_crashes"
   ],
   "note": ""
  },
  {
   "property": "C98",
   "status": "proved",
   "theorems": [
    "Spout.Deploy.C98_raw_in_one_place",
    "Spout.Deploy.C98_raw_exactly_once",
    "Spout.Deploy.C98_raw_at_most_once",
    "Spout.Deploy.C98_raw_arrives"
   ],
   "note": ""
  },
  {
   "property": "C99",
   "status": "proved",
   "theorems": [
    "Spout.Deploy.C99_processed",
    "Spout.Deploy.C99_each_line_counted",
    "Spout.Deploy.C99_triggered",
    "Spout.Deploy.C99_messages",
    "Spout.Deploy.C99_in_the_end",
    "Spout.Deploy.C99_triggered_is_written"
   ],
   "note": ""
  },
  {
   "property": "C100",
   "status": "proved",
   "theorems": [
    "Spout.C100_recovers",
    "Spout.C100_written"
   ],
   "note": ""
  },
  {
   "property": "C101",
   "status": "proved",
   "theorems": [
    "Spout.Deploy.C101_settles",
    "Spout.Deploy.C101_fair_finishes",
    "Spout.Deploy.C101_every_line_arrives",
    "Spout.Deploy.C101_fair_schedule_exists"
   ],
   "note": ""
  },
  {
   "property": "C102",
   "status": "proved",
   "theorems": [
    "Spout.Deploy.C102_can_complete",
    "Spout.Deploy.C102_fair_completes",
    "Spout.Deploy.C102_fair_schedule_exists",
    "Spout.Deploy.C102_archive_complete",
    "Spout.Deploy.C102_every_measurement_archived"
   ],
   "note": ""
  },
  {
   "property": "C103",
   "status": "partial",
   "theorems": [
    "Spout.C103_average_within_samples_partial",
    "Spout.C103_overflow",
    "Spout.C103_not_within_samples"
   ],
   "note": "False of the code: samples of opposite sign beyond half the largest float64 overflow; 1.7e308 and -1.7e308 are emitted as -Inf (C103_overflow), so the full property is refuted. Proved: if no sample is larger in magnitude than half the largest float64 (and there are fewer than 2^62), the emitted number is finite and within the range of the samples."
  },
  {
   "property": "C104",
   "status": "proved",
   "theorems": [
    "Spout.C104_error_bound"
   ],
   "note": ""
  },
  {
   "property": "C105",
   "status": "proved",
   "theorems": [
    "Spout.C105_float64_values",
    "Spout.C105_read_nearest",
    "Spout.C105_rejected_iff_too_large",
    "Spout.C105_only_numerals",
    "Spout.C105_written_reads_back",
    "Spout.C105_single_sample"
   ],
   "note": ""
  },
  {
   "property": "C106",
   "status": "partial",
   "theorems": [
    "Spout.Deploy.C106_order_kept_partial",
    "Spout.Deploy.C106_workers_overtake",
    "Spout.Deploy.C106_lines_of_a_message_in_order"
   ],
   "note": "False of the code with more than one filter worker (the default is 8): two workers take consecutive messages and the second is faster, so that a writer writes a client's second line first (C106_workers_overtake). Proved: with one filter process with one worker (any number of listeners, writers, writer workers, downsamplers) the order is kept; with any number of workers, crashes and any order in NATS, the lines of one listener message stay together and in their order and no message is used twice (C106_lines_of_a_message_in_order)."
  },
  {
   "property": "C107",
   "status": "proved",
   "theorems": [
    "Spout.Backlog.C107_setting",
    "Spout.Backlog.C107_backlog_bounded",
    "Spout.Backlog.C107_stays_within_limit",
    "Spout.Backlog.C107_dropped_only_when_full",
    "Spout.Backlog.C107_accepted_or_dropped",
    "Spout.Backlog.C107_queue",
    "Spout.Backlog.C107_memory_bounded"
   ],
   "note": ""
  },
  {
   "property": "C108",
   "status": "proved",
   "theorems": [
    "Spout.C108_duration_near",
    "Spout.C108_duration_exact",
    "Spout.C108_duration_accepted",
    "Spout.C108_duration_too_long",
    "Spout.C108_duration_means",
    "Spout.C108_size",
    "Spout.C108_size_too_large",
    "Spout.C108_size_bits",
    "Spout.C108_size_means",
    "Spout.C108_settings",
    "Spout.C108_good_file",
    "Spout.C108_bad_duration",
    "Spout.C108_bad_size"
   ],
   "note": ""
  },
  {
   "property": "C109",
   "status": "proved",
   "theorems": [
    "Spout.Delivery.C109_listener_window",
    "Spout.Delivery.C109_window",
    "Spout.Delivery.C109_writer",
    "Spout.Delivery.C109_listener",
    "Spout.Delivery.C109_end_to_end"
   ],
   "note": ""
  },
  {
   "property": "C110",
   "status": "partial",
   "theorems": [
    "Spout.C110_nothing_else_partial",
    "Spout.C110_accepted_is_stored_partial",
    "Spout.C110_same_as_once_partial",
    "Spout.C110_no_failure_partial",
    "Spout.C110_old_value_may_win",
    "Spout.C110_untimed_line_twice"
   ],
   "note": "False of the code in two ways: a retry can write an old value of a field of a point over a newer one that was accepted meanwhile (C110_old_value_may_win), and a line without timestamp whose first write was handled but not answered is stored as two points (C110_untimed_line_twice). Proved: nothing but what received lines say is ever stored; if lines have timestamps and no two lines give one field of one point different values, accepted chunks are stored for good and the final content is as if each line had been written once in order, whatever is sent again or handled late; without failures the claim holds for all lines with timestamps."
  },
  {
   "property": "C111",
   "status": "proved",
   "theorems": [
    "Spout.Deploy.C111_nothing_else",
    "Spout.Deploy.C111_accepted_is_stored",
    "Spout.Deploy.C111_deployment",
    "Spout.Deploy.C111_settles",
    "Spout.Delivery.C111_content"
   ],
   "note": ""
  },
  {
   "property": "C112",
   "status": "proved",
   "theorems": [
    "Spout.Deploy.C112_sizes",
    "Spout.Deploy.C112_stays",
    "Spout.Deploy.C112_exactly_once",
    "Spout.Deploy.C112_every_line_arrives",
    "Spout.Deploy.C112_stored",
    "Spout.Deploy.C112_same_subject",
    "Spout.Deploy.C112_starts",
    "Spout.Deploy.C112_everything_starts"
   ],
   "note": ""
  },
  {
   "property": "C113",
   "status": "proved",
   "theorems": [
    "Spout.Deploy.C113_udp_batches",
    "Spout.Deploy.C113_http_batches",
    "Spout.Deploy.C113_message_size",
    "Spout.Deploy.C113_filter_window",
    "Spout.Deploy.C113_writer_batches",
    "Spout.Deploy.C113_writer_retries",
    "Spout.Deploy.C113_filter_workers",
    "Spout.Deploy.C113_writer_workers"
   ],
   "note": ""
  },
  {
   "property": "C114",
   "status": "proved",
   "theorems": [
    "Spout.Deploy.C114_archive_complete",
    "Spout.Deploy.C114_every_measurement_archived",
    "Spout.Deploy.C114_every_subject",
    "Spout.Deploy.C114_negative_period"
   ],
   "note": ""
  },
  {
   "property": "C115",
   "status": "proved",
   "theorems": [
    "Spout.Deploy.C115_raw_exactly_once",
    "Spout.Deploy.C115_raw_at_most_once",
    "Spout.Deploy.C115_every_line_arrives",
    "Spout.Deploy.C115_stored",
    "Spout.Deploy.C115_default"
   ],
   "note": ""
  },
  {
   "property": "C116",
   "status": "partial",
   "theorems": [
    "Spout.Deploy.C116_circulates",
    "Spout.Deploy.C116_never_done",
    "Spout.Deploy.C116_busy_forever",
    "Spout.Deploy.C116_files_busy_forever",
    "Spout.Deploy.C116_rests_partial"
   ],
   "note": "False of the code: a rule subject or junk subject equal to the filters' own nats_subject is accepted, and then the lines that belong to it circulate. Proved: such lines are, exactly as often as they were sent, always still with the filters or on the way to them (C116_circulates), so the work is never done (C116_never_done), and under every fair schedule without loss the filters process messages for ever (C116_busy_forever; in terms of the files C116_files_busy_forever), shown for a concrete accepted set of files and a schedule. Lines with a timestamp circulate until they leave the time window; those without one for ever. What holds (C116_rests_partial): if no rule, junk or downsampler output subject is the filters' own, every fair schedule comes to rest, whatever fails or is lost."
  },
  {
   "property": "C117",
   "status": "partial",
   "theorems": [
    "Spout.Delivery.C117_level_partial",
    "Spout.Deploy.C117_chain_partial",
    "Spout.Deploy.C117_eventually_partial",
    "Spout.Deploy.C117_windows_shifted",
    "Spout.Deploy.C117_not_of_its_window",
    "Spout.Delivery.C117_binary64_plain"
   ],
   "note": "False of the code: a row carries the time of the (exclusive) end of its window, so a second level aggregates it in the window that begins there. C117_not_of_its_window exhibits a deployment in which the value for a window of the second level lacks a measurement of this window, which is in the next; C117_windows_shifted proves in general that, when the second period is a multiple of the first, the window [W-Q, W) holds exactly the measurements of [W-Q-P, W-P). Proved instead, for any number of levels, is what the code does: each level summarises what the one before it made, every row once, and InfluxDB is sent exactly the result (C117_chain_partial, and C117_eventually_partial for fair schedules), for measurements whose fields are always or never strings (a field that is first a number and then a string is emitted unquoted and may be unreadable for the next level), when no row is larger than a message."
  },
  {
   "property": "C118",
   "status": "proved",
   "theorems": [
    "Spout.C118_too_old_is_late",
    "Spout.C118_refused_exactly",
    "Spout.C118_on_time_in_reach",
    "Spout.C118_on_time_never_refused",
    "Spout.C118_sent_in_time",
    "Spout.C118_rows_never_refused",
    "Spout.C118_held_up",
    "Spout.C118_clock_set_back"
   ],
   "note": ""
  },
  {
   "property": "C119",
   "status": "proved",
   "theorems": [
    "Spout.C119_consistent_never_invalid",
    "Spout.Deploy.C119_counts",
    "Spout.Deploy.C119_archived",
    "Spout.Deploy.C119_eventually_archived"
   ],
   "note": ""
  },
  {
   "property": "C120",
   "status": "proved",
   "theorems": [
    "Spout.Deploy.C120_deployment",
    "Spout.Deploy.C120_chain_archived",
    "Spout.Deploy.C120_eventually_archived",
    "Spout.Delivery.C120_binary64_readable",
    "Spout.Delivery.C120_kind_kept",
    "Spout.Delivery.C120_keeps_schema"
   ],
   "note": ""
  },
  {
   "property": "C121",
   "status": "proved",
   "theorems": [
    "Spout.Deploy.C121_levels_exist",
    "Spout.Deploy.C121_chain_archived",
    "Spout.Deploy.C121_archives_from_files",
    "Spout.Deploy.C121_schema"
   ],
   "note": ""
  },
  {
   "property": "C122",
   "status": "proved",
   "theorems": [
    "Spout.Delivery.C122_reading_exists",
    "Spout.Delivery.C122_one_value",
    "Spout.Deploy.C122_archive_stored",
    "Spout.Deploy.C122_window_stored",
    "Spout.Deploy.C122_eventually_stored",
    "Spout.Deploy.C122_stored_from_files"
   ],
   "note": ""
  },
  {
   "property": "C123",
   "status": "proved",
   "theorems": [
    "Spout.Delivery.C123_window",
    "Spout.Delivery.C123_end_to_end"
   ],
   "note": ""
  },
  {
   "property": "C124",
   "status": "proved",
   "theorems": [
    "Spout.Delivery.C124_archived",
    "Spout.C124_timer",
    "Spout.C124_in_time"
   ],
   "note": ""
  },
  {
   "property": "C125",
   "status": "proved",
   "theorems": [
    "Spout.C125_listener",
    "Spout.C125_line",
    "Spout.C125_posted",
    "Spout.C125_no_older",
    "Spout.Delivery.C125_end_to_end",
    "Spout.Delivery.C125_client"
   ],
   "note": ""
  },
  {
   "property": "C126",
   "status": "proved",
   "theorems": [
    "Spout.Delivery.C126_listener",
    "Spout.Delivery.C126_on_time",
    "Spout.Delivery.C126_none_refused",
    "Spout.Delivery.C126_archived",
    "Spout.Delivery.C126_condition_needed"
   ],
   "note": ""
  },
  {
   "property": "C127",
   "status": "proved",
   "theorems": [
    "Spout.Prom.C127_rounds",
    "Spout.Prom.C127_page",
    "Spout.Prom.C127_at_most_an_interval_behind",
    "Spout.Prom.C127_counted",
    "Spout.Prom.C127_labels",
    "Spout.Prom.C127_writer_labels"
   ],
   "note": ""
  },
  {
   "property": "C128",
   "status": "proved",
   "theorems": [
    "Spout.Delivery.C128_listener",
    "Spout.Delivery.C128_posted_line",
    "Spout.Delivery.C128_on_time",
    "Spout.Delivery.C128_none_refused",
    "Spout.Delivery.C128_archived"
   ],
   "note": ""
  },
  {
   "property": "C129",
   "status": "proved",
   "theorems": [
    "Spout.Delivery.C129_udp",
    "Spout.Delivery.C129_http",
    "Spout.Delivery.C129_writer",
    "Spout.Delivery.C129_downsampler"
   ],
   "note": ""
  },
  {
   "property": "C130",
   "status": "proved",
   "theorems": [
    "Spout.Delivery.C130_writer",
    "Spout.Delivery.C130_requests",
    "Spout.Delivery.C130_filtered",
    "Spout.Delivery.C130_udp",
    "Spout.Delivery.C130_http"
   ],
   "note": ""
  }
 ]
}