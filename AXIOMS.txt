Spout.Backlog.C107_accepted_or_dropped: [propext, Quot.sound]
Spout.Backlog.C107_backlog_bounded: [propext, Quot.sound]
Spout.Backlog.C107_dropped_only_when_full: [propext, Quot.sound]
Spout.Backlog.C107_memory_bounded: [propext, Quot.sound]
Spout.Backlog.C107_queue: [propext]
Spout.Backlog.C107_setting: [propext, Quot.sound]
Spout.Backlog.C107_stays_within_limit: [propext, Quot.sound]
Spout.Bench.C94_regressions_found_partial: [propext, Classical.choice, Quot.sound]
Spout.Bench.C94_ten_percent_not_reported: [propext, Classical.choice, Quot.sound]
Spout.Bench.C94_unreadable_fails: [propext, Classical.choice, Quot.sound]
Spout.C01_chunkSize_zero_diverges: [propext, Quot.sound]
Spout.C01_exhausted_stays_exhausted: [propext]
Spout.C01_split_conserves_bytes: [propext, Quot.sound]
Spout.C02_chunk_limit_partial: [propext, Quot.sound]
Spout.C02_chunk_limit_violated: [propext]
Spout.C03_chunks_end_at_lines: [propext, Quot.sound]
Spout.C03_short_lines_never_cut: [propext, Quot.sound]
Spout.C04_rejections: [propext, Classical.choice, Quot.sound]
Spout.C04_toInt_accepts_all_decimals: [propext, Classical.choice, Quot.sound]
Spout.C04_toInt_accepts_overflow: []
Spout.C04_toInt_exact_mod_2_64: [propext, Classical.choice, Quot.sound]
Spout.C04_toInt_exact_partial: [propext, Classical.choice, Quot.sound]
Spout.C05_print_is_decimal: [propext, Quot.sound]
Spout.C05_print_parse_roundtrip: [propext, Classical.choice, Quot.sound]
Spout.C06_nanos_absent: [propext, Classical.choice, Quot.sound]
Spout.C06_nanos_exact: [propext, Classical.choice, Quot.sound]
Spout.C06_nanos_full_length: [propext, Classical.choice, Quot.sound]
Spout.C06_nanos_short_missed: [propext]
Spout.C06_nanos_sound: [propext, Classical.choice, Quot.sound]
Spout.C06_timestamp_absent: [propext, Classical.choice, Quot.sound]
Spout.C06_timestamp_exact: [propext, Classical.choice, Quot.sound]
Spout.C06_timestamp_found: [propext, Classical.choice, Quot.sound]
Spout.C07_scaling_exact: [propext, Classical.choice, Quot.sound]
Spout.C08_conversion: [propext, Classical.choice, Quot.sound]
Spout.C08_converted_has_scaled_ts: [propext, Classical.choice, Quot.sound]
Spout.C08_request: [propext, Classical.choice, Quot.sound]
Spout.C08_request_nanos: [propext, Quot.sound]
Spout.C09_escaped_has_no_bare_delimiter: [propext, Quot.sound]
Spout.C09_tag_escape_roundtrip: [propext, Quot.sound]
Spout.C100_recovers: [propext, Classical.choice, Quot.sound]
Spout.C100_written: [propext, Classical.choice, Quot.sound]
Spout.C103_average_within_samples_partial: [propext, Classical.choice, Quot.sound]
Spout.C103_not_within_samples: [propext, Classical.choice, Quot.sound]
Spout.C103_overflow: [propext, Classical.choice, Quot.sound]
Spout.C104_error_bound: [propext, Classical.choice, Quot.sound]
Spout.C105_float64_values: [propext, Classical.choice, Quot.sound]
Spout.C105_only_numerals: [propext, Classical.choice, Quot.sound]
Spout.C105_read_nearest: [propext, Classical.choice, Quot.sound]
Spout.C105_rejected_iff_too_large: [propext, Classical.choice, Quot.sound]
Spout.C105_single_sample: [propext, Classical.choice, Quot.sound]
Spout.C105_written_reads_back: [propext, Classical.choice, Quot.sound]
Spout.C108_bad_duration: [propext, Classical.choice, Quot.sound]
Spout.C108_bad_size: [propext, Classical.choice, Quot.sound]
Spout.C108_duration_accepted: [propext, Classical.choice, Quot.sound]
Spout.C108_duration_exact: [propext, Classical.choice, Quot.sound]
Spout.C108_duration_means: [propext, Classical.choice, Quot.sound]
Spout.C108_duration_near: [propext, Classical.choice, Quot.sound]
Spout.C108_duration_too_long: [propext, Classical.choice, Quot.sound]
Spout.C108_good_file: [propext, Classical.choice, Quot.sound]
Spout.C108_settings: [propext, Classical.choice, Quot.sound]
Spout.C108_size: [propext, Classical.choice, Quot.sound]
Spout.C108_size_bits: [propext, Classical.choice, Quot.sound]
Spout.C108_size_means: [propext, Classical.choice, Quot.sound]
Spout.C108_size_too_large: [propext, Classical.choice, Quot.sound]
Spout.C10_measurement_escape_roundtrip: [propext, Quot.sound]
Spout.C110_accepted_is_stored_partial: [propext, Classical.choice, Quot.sound]
Spout.C110_no_failure_partial: [propext, Classical.choice, Quot.sound]
Spout.C110_nothing_else_partial: [propext, Classical.choice, Quot.sound]
Spout.C110_old_value_may_win: [propext, Classical.choice, Quot.sound]
Spout.C110_same_as_once_partial: [propext, Classical.choice, Quot.sound]
Spout.C110_untimed_line_twice: [propext, Quot.sound]
Spout.C118_clock_set_back: [propext, Quot.sound]
Spout.C118_held_up: [propext, Quot.sound]
Spout.C118_on_time_in_reach: [propext, Classical.choice, Quot.sound]
Spout.C118_on_time_never_refused: [propext, Classical.choice, Quot.sound]
Spout.C118_refused_exactly: [propext, Classical.choice, Quot.sound]
Spout.C118_rows_never_refused: [propext, Classical.choice, Quot.sound]
Spout.C118_sent_in_time: [propext, Classical.choice, Quot.sound]
Spout.C118_too_old_is_late: [propext, Classical.choice, Quot.sound]
Spout.C119_consistent_never_invalid: [propext, Classical.choice, Quot.sound]
Spout.C11_quoted_string_roundtrip: [propext, Classical.choice, Quot.sound]
Spout.C124_in_time: [propext, Classical.choice, Quot.sound]
Spout.C124_timer: [propext, Classical.choice, Quot.sound]
Spout.C125_line: [propext, Classical.choice, Quot.sound]
Spout.C125_listener: [propext, Classical.choice, Quot.sound]
Spout.C125_no_older: [propext, Classical.choice, Quot.sound]
Spout.C125_posted: [propext, Classical.choice, Quot.sound]
Spout.C12_leading_delimiter_ignored: [propext]
Spout.C12_token_cuts_at_first_delimiter: [propext, Classical.choice, Quot.sound]
Spout.C12_token_single: [propext, Classical.choice, Quot.sound]
Spout.C12_token_unescapes: [propext, Classical.choice, Quot.sound]
Spout.C13_conditions_needed: [propext]
Spout.C13_parse_inverts_serialise: [propext, Classical.choice, Quot.sound]
Spout.C13_parse_inverts_serialise_no_fields: [propext, Classical.choice, Quot.sound]
Spout.C14_downsampler_never_panics: [propext, Classical.choice, Quot.sound]
Spout.C14_parsers_never_panic: [propext, Classical.choice, Quot.sound]
Spout.C15_first_match: [propext, Classical.choice, Quot.sound]
Spout.C15_lookup_total: [propext, Classical.choice, Quot.sound]
Spout.C15_no_match: [propext, Classical.choice, Quot.sound]
Spout.C16_history: [propext, Classical.choice, Quot.sound]
Spout.C16_lines_are_lines: [propext]
Spout.C16_no_line_missed: [propext]
Spout.C16_one_message: [propext, Classical.choice, Quot.sound]
Spout.C16_text_nonempty: [propext, Classical.choice, Quot.sound]
Spout.C17_in_window_accepted: [propext, Classical.choice, Quot.sound]
Spout.C17_judged_timestamp: [propext, Classical.choice, Quot.sound]
Spout.C17_minus_one_accepted: [propext, Quot.sound]
Spout.C17_no_timestamp_accepted: [propext, Classical.choice, Quot.sound]
Spout.C17_old_line_not_forwarded_partial: [propext, Classical.choice, Quot.sound]
Spout.C17_recent_line_forwarded: [propext, Classical.choice, Quot.sound]
Spout.C17_short_line_not_checked: [propext, Quot.sound]
Spout.C17_short_timestamp_not_checked: [propext, Quot.sound]
Spout.C17_window_partial: [propext, Classical.choice, Quot.sound]
Spout.C18_basic_rule_collision: [propext, Quot.sound]
Spout.C18_basic_rule_complete: [propext, Classical.choice, Quot.sound]
Spout.C18_basic_rule_exact_partial: [propext, Classical.choice, Quot.sound]
Spout.C18_basic_rule_sound_without_collision: [propext, Classical.choice, Quot.sound]
Spout.C18_no_collision_last_byte: [propext, Quot.sound]
Spout.C19_order_irrelevant: [propext, Classical.choice, Quot.sound]
Spout.C19_rule_exact: [propext, Classical.choice, Quot.sound]
Spout.C19_subset_exact: [propext, Classical.choice, Quot.sound]
Spout.C19_written_line: [propext, Classical.choice, Quot.sound]
Spout.C20_order_irrelevant_partial: [propext, Classical.choice, Quot.sound]
Spout.C20_regex_order_irrelevant: [propext, Classical.choice, Quot.sound]
Spout.C20_routes_as_parsed_partial: [propext, Classical.choice, Quot.sound]
Spout.C20_routing_depends_on_order: [propext, Quot.sound]
Spout.C20_uniform_layout_partial: [propext, Classical.choice, Quot.sound]
Spout.C20_wrong_subject: [propext, Quot.sound]
Spout.C21_idempotent: [propext, Classical.choice, Quot.sound]
Spout.C21_no_double_backslash_partial: [propext, Classical.choice, Quot.sound]
Spout.C21_order_canonical: [propext, Classical.choice, Quot.sound]
Spout.C21_sorted_unchanged: [propext, Classical.choice, Quot.sound]
Spout.C21_sorting_changes_value: [propext, Quot.sound]
Spout.C21_sorting_moves_newline: [propext, Quot.sound]
Spout.C21_sorting_preserves_meaning_partial: [propext, Classical.choice, Quot.sound]
Spout.C21_unsorted_output: [propext, Classical.choice, Quot.sound]
Spout.C22_counters: [propext, Classical.choice, Quot.sound]
Spout.C23_pair_total: [propext, Classical.choice, Quot.sound]
Spout.C23_regex_complement: [propext, Classical.choice, Quot.sound]
Spout.C24_code_refines_spec: [propext, Classical.choice, Quot.sound]
Spout.C24_update_is_lines: [propext, Quot.sound]
Spout.C24_windows_tile: [propext, Classical.choice, Quot.sound]
Spout.C25_rejected_iff_outside: [propext, Classical.choice, Quot.sound]
Spout.C26_emitted_in_order: [propext, Classical.choice, Quot.sound]
Spout.C26_emitted_when_due: [propext, Classical.choice, Quot.sound]
Spout.C26_timer: [propext, Classical.choice, Quot.sound]
Spout.C27_lines_partitioned: [propext, Classical.choice, Quot.sound]
Spout.C28_average_outside_samples: [propext, Quot.sound]
Spout.C28_average_within_samples_partial: [propext, Classical.choice, Quot.sound]
Spout.C29_error_bound_partial: [propext, Classical.choice, Quot.sound]
Spout.C29_error_bound_tight: [propext, Classical.choice, Quot.sound]
Spout.C29_not_the_mean: [propext, Classical.choice, Quot.sound]
Spout.C30_kind_of_first_sample: [propext, Quot.sound]
Spout.C30_last_value_partial: [propext, Classical.choice, Quot.sound]
Spout.C31_integer_field: [propext, Classical.choice, Quot.sound]
Spout.C31_mismatch_ignored: [propext, Classical.choice, Quot.sound]
Spout.C31_mismatch_reported_partial: [propext, Classical.choice, Quot.sound]
Spout.C31_quoted_integer_accepted: [propext, Quot.sound]
Spout.C32_invalid_line_counted: [propext, Quot.sound]
Spout.C32_invalid_line_ignored_partial: [propext, Classical.choice, Quot.sound]
Spout.C33_all_kept: [propext, Classical.choice, Quot.sound]
Spout.C33_line_read: [propext, Classical.choice, Quot.sound]
Spout.C33_single_field: [propext, Classical.choice, Quot.sound]
Spout.C33_window_output: [propext, Classical.choice, Quot.sound]
Spout.C34_every_byte_once: [propext, Classical.choice, Quot.sound]
Spout.C34_every_matching_line_once: [propext, Classical.choice, Quot.sound]
Spout.C34_lost_on_stop: [propext, Classical.choice, Quot.sound]
Spout.C35_limit_reached_sends: [propext, Classical.choice, Quot.sound]
Spout.C35_sent_at_limit: [propext, Classical.choice, Quot.sound]
Spout.C35_waiting_below_limits: [propext, Classical.choice, Quot.sound]
Spout.C36_rules_select_lines: [propext, Classical.choice, Quot.sound]
Spout.C37_retry_memory: [propext, Classical.choice, Quot.sound]
Spout.C37_retry_queue_bounded: [propext, Classical.choice, Quot.sound]
Spout.C38_oldest_discarded: [propext, Classical.choice, Quot.sound]
Spout.C38_only_to_make_room: [propext, Classical.choice, Quot.sound]
Spout.C39_dropped_only_when_expired: [propext, Classical.choice, Quot.sound]
Spout.C39_expired_never_retried: [propext, Classical.choice, Quot.sound]
Spout.C40_kept: [propext, Classical.choice, Quot.sound]
Spout.C40_removed: [propext, Classical.choice, Quot.sound]
Spout.C40_rotation: [propext, Classical.choice, Quot.sound]
Spout.C41_one_at_a_time: [propext, Classical.choice, Quot.sound]
Spout.C41_rate_limited: [propext, Classical.choice, Quot.sound]
Spout.C42_exactly_one_status: [propext, Classical.choice, Quot.sound]
Spout.C42_numbering: [propext, Classical.choice, Quot.sound]
Spout.C42_on_its_way: [propext, Classical.choice, Quot.sound]
Spout.C42_same_data: [propext, Classical.choice, Quot.sound]
Spout.C42_written_once: [propext, Classical.choice, Quot.sound]
Spout.C43_at_most_two_rejections: [propext, Classical.choice, Quot.sound]
Spout.C43_not_resent_partial: [propext, Classical.choice, Quot.sound]
Spout.C43_rejected_batch_resent: [propext, Quot.sound]
Spout.C44_counters_exact: [propext, Classical.choice, Quot.sound]
Spout.C44_not_as_documented: [propext, Quot.sound]
Spout.C44_overcounts_empty_batch: [propext, Quot.sound]
Spout.C44_reports_lost_only_when_full: [propext, Quot.sound]
Spout.C44_undercounts_split_batch: [propext, Quot.sound]
Spout.C44_write_requests_partial: [propext, Classical.choice, Quot.sound]
Spout.C45_no_deadlock: [propext, Classical.choice, Quot.sound]
Spout.C45_stop_completes: [propext, Classical.choice, Quot.sound]
Spout.C46_batch_is_a_log: [propext, Classical.choice, Quot.sound]
Spout.C46_read_room: [propext, Quot.sound]
Spout.C46_room_below_datagram: [propext, Quot.sound]
Spout.C47_room_for_datagram: [propext, Classical.choice, Quot.sound]
Spout.C48_udp_stream: [propext, Classical.choice, Quot.sound]
Spout.C49_udp_message_size: [propext, Classical.choice, Quot.sound]
Spout.C50_bodies_merged: [propext, Quot.sound]
Spout.C50_history_lines_partial: [propext, Classical.choice, Quot.sound]
Spout.C50_lines_kept_apart_partial: [propext, Classical.choice, Quot.sound]
Spout.C50_nanos_request: [propext, Quot.sound]
Spout.C50_precision_request: [propext, Classical.choice, Quot.sound]
Spout.C51_downsampler_message_size_partial: [propext, Classical.choice, Quot.sound]
Spout.C51_http_message_size_partial: [propext, Classical.choice, Quot.sound]
Spout.C51_http_message_too_large: [propext, Classical.choice, Quot.sound]
Spout.C51_http_whole_lines: [propext, Classical.choice, Quot.sound]
Spout.C52_age_bound_partial: [propext, Classical.choice, Quot.sound]
Spout.C52_delay_reached: [propext, Quot.sound]
Spout.C52_ideal: [propext, Classical.choice, Quot.sound]
Spout.C52_lines_not_empty: [propext, Classical.choice, Quot.sound]
Spout.C66_converted_request: [propext, Classical.choice, Quot.sound]
Spout.C66_http_counters: [propext, Classical.choice, Quot.sound]
Spout.C66_request_counted: [propext, Quot.sound]
Spout.C66_udp_counters: [propext, Classical.choice, Quot.sound]
Spout.C67_round_up: [propext, Quot.sound]
Spout.C68_downsampler_stream: [propext, Classical.choice, Quot.sound]
Spout.C69_age_bound: [propext, Classical.choice, Quot.sound]
Spout.C69_sent_in_time: [propext, Classical.choice, Quot.sound]
Spout.C69_timer: [propext, Classical.choice, Quot.sound]
Spout.C70_sizes: [propext, Classical.choice, Quot.sound]
Spout.C70_whole_lines: [propext, Classical.choice, Quot.sound]
Spout.C71_retries_timely: [propext, Classical.choice, Quot.sound]
Spout.C82_lines_in_order: [propext, Quot.sound]
Spout.C82_percent_garbled: [propext, Quot.sound]
Spout.C82_prints_everything_partial: [propext, Quot.sound]
Spout.C82_prints_matching_lines_partial: [propext, Quot.sound]
Spout.C83_database_exactly: [propext, Classical.choice, Quot.sound]
Spout.C83_outcome: [propext, Classical.choice, Quot.sound]
Spout.C83_write_request_partial: [propext, Classical.choice, Quot.sound]
Spout.C83_wrong_database: [propext, Quot.sound]
Spout.C84_success_although_lost: [propext, Quot.sound]
Spout.C84_whole_body_or_counted_partial: [propext, Classical.choice, Quot.sound]
Spout.C87_stops_only_when_told: [propext, Quot.sound]
Spout.C89_http_batches: [propext, Classical.choice, Quot.sound]
Spout.C89_udp_age: [propext, Classical.choice, Quot.sound]
Spout.C89_udp_batches: [propext, Classical.choice, Quot.sound]
Spout.C89_udp_delay: [propext, Classical.choice, Quot.sound]
Spout.C92_batch_memory: [propext, Classical.choice, Quot.sound]
Spout.C92_http_memory_partial: [propext, Classical.choice, Quot.sound]
Spout.C92_http_unbounded: [propext, Classical.choice, Quot.sound]
Spout.C92_retry_memory: [propext, Classical.choice, Quot.sound]
Spout.C92_udp_memory: [propext, Classical.choice, Quot.sound]
Spout.C92_writer_batch: [propext, Classical.choice, Quot.sound]
Spout.C96_client_damages_others: [propext, Quot.sound]
Spout.C96_lines_stay_lines_partial: [propext, Classical.choice, Quot.sound]
Spout.C96_stays_one_line: [propext, Classical.choice, Quot.sound]
Spout.Conf.C61_listener_messages_fit: [propext, Classical.choice, Quot.sound]
Spout.Conf.C61_negative_period_accepted: []
Spout.Conf.C61_validate_exactly: [propext, Classical.choice, Quot.sound]
Spout.Conf.C61_writer_rejects_tags_rules: [propext, Classical.choice, Quot.sound]
Spout.Conf.C62_panics_exactly: [propext, Classical.choice, Quot.sound]
Spout.Conf.C62_validated_filter: [propext, Classical.choice, Quot.sound]
Spout.Conf.C62_validated_writer_can_panic: [propext, Quot.sound]
Spout.Conf.C62_validated_writer_partial: [propext, Classical.choice, Quot.sound]
Spout.Conf.C63_bad_common_file: [propext, Quot.sound]
Spout.Conf.C63_default_name: [propext]
Spout.Conf.C63_default_name_no_extension: [propext]
Spout.Conf.C63_dynamic_settings: [propext, Quot.sound]
Spout.Conf.C63_loaded_acceptable: [propext, Classical.choice, Quot.sound]
Spout.Conf.C63_loaded_exactly: [propext, Classical.choice, Quot.sound]
Spout.Conf.C63_missing_file: [propext, Quot.sound]
Spout.Conf.C63_plain_settings: [propext, Quot.sound]
Spout.Conf.C63_rules_can_mix: [propext]
Spout.Conf.C63_rules_partial: [propext, Quot.sound]
Spout.Conf.C75_first_configured_match: [propext, Classical.choice, Quot.sound]
Spout.Conf.C75_rules_as_configured: [propext, Classical.choice, Quot.sound]
Spout.Conf.C75_unknown_type_is_error: [propext, Classical.choice, Quot.sound]
Spout.Counters.C58_calls_linearizable: [propext, Quot.sound]
Spout.Counters.C58_calls_proceed: [propext, Quot.sound]
Spout.Counters.C58_distinct_results: [propext, Classical.choice, Quot.sound]
Spout.Counters.C58_exact_when_quiet: [propext, Classical.choice, Quot.sound]
Spout.Counters.C58_never_backwards: [propext, Classical.choice, Quot.sound]
Spout.Counters.C58_no_increment_lost: [propext, Classical.choice, Quot.sound]
Spout.Counters.C59_at_least_returned: [propext, Classical.choice, Quot.sound]
Spout.Counters.C59_bounded_retries: [propext, Classical.choice, Quot.sound]
Spout.Counters.C59_largest_when_quiet: [propext, Classical.choice, Quot.sound]
Spout.Counters.C59_result_is_a_value_of_the_counter: [propext, Quot.sound]
Spout.Counters.C60_not_one_moment: [propext, Quot.sound]
Spout.Counters.C60_snapshot_bounds: [propext, Classical.choice, Quot.sound]
Spout.Counters.C60_snapshot_values: [propext, Quot.sound]
Spout.Counters.C73_named_snapshot: [propext, Classical.choice, Quot.sound]
Spout.Counters.C73_names_have_own_counters: [propext, Classical.choice, Quot.sound]
Spout.Delivery.C109_end_to_end: [propext, Classical.choice, Quot.sound]
Spout.Delivery.C109_listener: [propext, Classical.choice, Quot.sound]
Spout.Delivery.C109_listener_window: [propext, Classical.choice, Quot.sound]
Spout.Delivery.C109_window: [propext, Classical.choice, Quot.sound]
Spout.Delivery.C109_writer: [propext, Classical.choice, Quot.sound]
Spout.Delivery.C111_content: [propext, Classical.choice, Quot.sound]
Spout.Delivery.C117_binary64_plain: [propext, Classical.choice, Quot.sound]
Spout.Delivery.C117_level_partial: [propext, Classical.choice, Quot.sound]
Spout.Delivery.C120_binary64_readable: [propext, Classical.choice, Quot.sound]
Spout.Delivery.C120_keeps_schema: [propext, Classical.choice, Quot.sound]
Spout.Delivery.C120_kind_kept: [propext, Classical.choice, Quot.sound]
Spout.Delivery.C122_one_value: [propext, Quot.sound]
Spout.Delivery.C122_reading_exists: [propext, Classical.choice, Quot.sound]
Spout.Delivery.C123_end_to_end: [propext, Classical.choice, Quot.sound]
Spout.Delivery.C123_window: [propext, Classical.choice, Quot.sound]
Spout.Delivery.C124_archived: [propext, Classical.choice, Quot.sound]
Spout.Delivery.C125_client: [propext, Classical.choice, Quot.sound]
Spout.Delivery.C125_end_to_end: [propext, Classical.choice, Quot.sound]
Spout.Delivery.C126_archived: [propext, Classical.choice, Quot.sound]
Spout.Delivery.C126_condition_needed: [propext, Quot.sound]
Spout.Delivery.C126_listener: [propext, Classical.choice, Quot.sound]
Spout.Delivery.C126_none_refused: [propext, Classical.choice, Quot.sound]
Spout.Delivery.C126_on_time: [propext, Classical.choice, Quot.sound]
Spout.Delivery.C128_archived: [propext, Classical.choice, Quot.sound]
Spout.Delivery.C128_listener: [propext, Classical.choice, Quot.sound]
Spout.Delivery.C128_none_refused: [propext, Classical.choice, Quot.sound]
Spout.Delivery.C128_on_time: [propext, Classical.choice, Quot.sound]
Spout.Delivery.C128_posted_line: [propext, Classical.choice, Quot.sound]
Spout.Delivery.C129_downsampler: [propext, Classical.choice, Quot.sound]
Spout.Delivery.C129_http: [propext, Classical.choice, Quot.sound]
Spout.Delivery.C129_udp: [propext, Classical.choice, Quot.sound]
Spout.Delivery.C129_writer: [propext, Classical.choice, Quot.sound]
Spout.Delivery.C130_filtered: [propext, Classical.choice, Quot.sound]
Spout.Delivery.C130_http: [propext, Classical.choice, Quot.sound]
Spout.Delivery.C130_requests: [propext, Classical.choice, Quot.sound]
Spout.Delivery.C130_udp: [propext, Classical.choice, Quot.sound]
Spout.Delivery.C130_writer: [propext, Classical.choice, Quot.sound]
Spout.Delivery.C65_any_number_of_workers: [propext, Classical.choice, Quot.sound]
Spout.Delivery.C65_flushed: [propext, Classical.choice, Quot.sound]
Spout.Delivery.C65_in_order: [propext, Classical.choice, Quot.sound]
Spout.Delivery.C65_lines_byte_for_byte: [propext, Classical.choice, Quot.sound]
Spout.Delivery.C65_never_twice: [propext, Classical.choice, Quot.sound]
Spout.Delivery.C65_no_resend: [propext, Classical.choice, Quot.sound]
Spout.Delivery.C88_at_most_once: [propext, Classical.choice, Quot.sound]
Spout.Delivery.C88_every_line_in_one_place: [propext, Classical.choice, Quot.sound]
Spout.Delivery.C88_exactly_once: [propext, Classical.choice, Quot.sound]
Spout.Delivery.C90_archive: [propext, Classical.choice, Quot.sound]
Spout.Deploy.C101_every_line_arrives: [propext, Classical.choice, Quot.sound]
Spout.Deploy.C101_fair_finishes: [propext, Classical.choice, Quot.sound]
Spout.Deploy.C101_fair_schedule_exists: [propext, Classical.choice, Quot.sound]
Spout.Deploy.C101_settles: [propext, Classical.choice, Quot.sound]
Spout.Deploy.C102_archive_complete: [propext, Classical.choice, Quot.sound]
Spout.Deploy.C102_can_complete: [propext, Classical.choice, Quot.sound]
Spout.Deploy.C102_every_measurement_archived: [propext, Classical.choice, Quot.sound]
Spout.Deploy.C102_fair_completes: [propext, Classical.choice, Quot.sound]
Spout.Deploy.C102_fair_schedule_exists: [propext, Classical.choice, Quot.sound]
Spout.Deploy.C106_lines_of_a_message_in_order: [propext, Classical.choice, Quot.sound]
Spout.Deploy.C106_order_kept_partial: [propext, Classical.choice, Quot.sound]
Spout.Deploy.C106_workers_overtake: [propext, Quot.sound]
Spout.Deploy.C111_accepted_is_stored: [propext, Classical.choice, Quot.sound]
Spout.Deploy.C111_deployment: [propext, Classical.choice, Quot.sound]
Spout.Deploy.C111_nothing_else: [propext, Classical.choice, Quot.sound]
Spout.Deploy.C111_settles: [propext, Classical.choice, Quot.sound]
Spout.Deploy.C112_every_line_arrives: [propext, Classical.choice, Quot.sound]
Spout.Deploy.C112_everything_starts: [propext, Quot.sound]
Spout.Deploy.C112_exactly_once: [propext, Classical.choice, Quot.sound]
Spout.Deploy.C112_same_subject: [propext, Quot.sound]
Spout.Deploy.C112_sizes: [propext, Classical.choice, Quot.sound]
Spout.Deploy.C112_starts: [propext, Classical.choice, Quot.sound]
Spout.Deploy.C112_stays: [propext, Quot.sound]
Spout.Deploy.C112_stored: [propext, Classical.choice, Quot.sound]
Spout.Deploy.C113_filter_window: [propext, Classical.choice, Quot.sound]
Spout.Deploy.C113_filter_workers: [propext, Quot.sound]
Spout.Deploy.C113_http_batches: [propext, Classical.choice, Quot.sound]
Spout.Deploy.C113_message_size: [propext, Classical.choice, Quot.sound]
Spout.Deploy.C113_udp_batches: [propext, Classical.choice, Quot.sound]
Spout.Deploy.C113_writer_batches: [propext, Classical.choice, Quot.sound]
Spout.Deploy.C113_writer_retries: [propext, Classical.choice, Quot.sound]
Spout.Deploy.C113_writer_workers: [propext, Quot.sound]
Spout.Deploy.C114_archive_complete: [propext, Classical.choice, Quot.sound]
Spout.Deploy.C114_every_measurement_archived: [propext, Classical.choice, Quot.sound]
Spout.Deploy.C114_every_subject: [propext, Quot.sound]
Spout.Deploy.C114_negative_period: [propext, Classical.choice, Quot.sound]
Spout.Deploy.C115_default: [propext, Classical.choice, Quot.sound]
Spout.Deploy.C115_every_line_arrives: [propext, Classical.choice, Quot.sound]
Spout.Deploy.C115_raw_at_most_once: [propext, Classical.choice, Quot.sound]
Spout.Deploy.C115_raw_exactly_once: [propext, Classical.choice, Quot.sound]
Spout.Deploy.C115_stored: [propext, Classical.choice, Quot.sound]
Spout.Deploy.C116_busy_forever: [propext, Classical.choice, Quot.sound]
Spout.Deploy.C116_circulates: [propext, Classical.choice, Quot.sound]
Spout.Deploy.C116_files_busy_forever: [propext, Classical.choice, Quot.sound]
Spout.Deploy.C116_never_done: [propext, Classical.choice, Quot.sound]
Spout.Deploy.C116_rests_partial: [propext, Classical.choice, Quot.sound]
Spout.Deploy.C117_chain_partial: [propext, Classical.choice, Quot.sound]
Spout.Deploy.C117_eventually_partial: [propext, Classical.choice, Quot.sound]
Spout.Deploy.C117_not_of_its_window: [propext, Classical.choice, Quot.sound]
Spout.Deploy.C117_windows_shifted: [propext, Classical.choice, Quot.sound]
Spout.Deploy.C119_archived: [propext, Classical.choice, Quot.sound]
Spout.Deploy.C119_counts: [propext, Classical.choice, Quot.sound]
Spout.Deploy.C119_eventually_archived: [propext, Classical.choice, Quot.sound]
Spout.Deploy.C120_chain_archived: [propext, Classical.choice, Quot.sound]
Spout.Deploy.C120_deployment: [propext, Classical.choice, Quot.sound]
Spout.Deploy.C120_eventually_archived: [propext, Classical.choice, Quot.sound]
Spout.Deploy.C121_archives_from_files: [propext, Classical.choice, Quot.sound]
Spout.Deploy.C121_chain_archived: [propext, Classical.choice, Quot.sound]
Spout.Deploy.C121_levels_exist: [propext, Quot.sound]
Spout.Deploy.C121_schema: [propext, Classical.choice, Quot.sound]
Spout.Deploy.C122_archive_stored: [propext, Classical.choice, Quot.sound]
Spout.Deploy.C122_eventually_stored: [propext, Classical.choice, Quot.sound]
Spout.Deploy.C122_stored_from_files: [propext, Classical.choice, Quot.sound]
Spout.Deploy.C122_window_stored: [propext, Classical.choice, Quot.sound]
Spout.Deploy.C88_deployment: [propext, Classical.choice, Quot.sound]
Spout.Deploy.C88_deployment_at_most_once: [propext, Classical.choice, Quot.sound]
Spout.Deploy.C88_deployment_exactly_once: [propext, Classical.choice, Quot.sound]
Spout.Deploy.C90_deployment: [propext, Classical.choice, Quot.sound]
Spout.Deploy.C95_can_finish: [propext, Classical.choice, Quot.sound]
Spout.Deploy.C95_every_line_arrives: [propext, Classical.choice, Quot.sound]
Spout.Deploy.C97_crashes: [propext, Classical.choice, Quot.sound]
Spout.Deploy.C98_raw_arrives: [propext, Classical.choice, Quot.sound]
Spout.Deploy.C98_raw_at_most_once: [propext, Classical.choice, Quot.sound]
Spout.Deploy.C98_raw_exactly_once: [propext, Classical.choice, Quot.sound]
Spout.Deploy.C98_raw_in_one_place: [propext, Classical.choice, Quot.sound]
Spout.Deploy.C99_each_line_counted: [propext, Classical.choice, Quot.sound]
Spout.Deploy.C99_in_the_end: [propext, Classical.choice, Quot.sound]
Spout.Deploy.C99_messages: [propext, Classical.choice, Quot.sound]
Spout.Deploy.C99_processed: [propext, Classical.choice, Quot.sound]
Spout.Deploy.C99_triggered: [propext, Classical.choice, Quot.sound]
Spout.Deploy.C99_triggered_is_written: [propext, Classical.choice, Quot.sound]
Spout.Handover.C91_downsampler_messages: [propext, Classical.choice, Quot.sound]
Spout.Handover.C91_filter_messages: [propext, Classical.choice, Quot.sound]
Spout.Handover.C91_writer_messages: [propext, Classical.choice, Quot.sound]
Spout.Lifecycle.C76_negative_workers_panic: [propext, Quot.sound]
Spout.Lifecycle.C76_no_panic_partial: [propext, Classical.choice, Quot.sound]
Spout.Lifecycle.C77_failed_start_returns: [propext, Classical.choice, Quot.sound]
Spout.Lifecycle.C77_start_returns: [propext, Classical.choice, Quot.sound]
Spout.Lifecycle.C77_stop_returns: [propext, Classical.choice, Quot.sound]
Spout.Lifecycle.C78_stopped: [propext, Classical.choice, Quot.sound]
Spout.Lifecycle.C78_unsubscribed: [propext, Classical.choice, Quot.sound]
Spout.Lifecycle.C78_unsubscribed_first: [propext, Classical.choice, Quot.sound]
Spout.Lifecycle.C79_failed_start_partial: [propext, Classical.choice, Quot.sound]
Spout.Lifecycle.C79_listener_leaks_probes: [propext, Quot.sound]
Spout.Lifecycle.C79_listener_leaks_socket: [propext, Quot.sound]
Spout.Lifecycle.C79_listener_partial: [propext, Classical.choice, Quot.sound]
Spout.Lifecycle.C80_downsampler_ready: [propext, Classical.choice, Quot.sound]
Spout.Lifecycle.C80_filter_not_flushed: [propext, Classical.choice, Quot.sound]
Spout.Lifecycle.C80_filter_ready: [propext, Classical.choice, Quot.sound]
Spout.Lifecycle.C80_http_binds: [propext, Classical.choice, Quot.sound]
Spout.Lifecycle.C80_http_keeps_port: [propext, Classical.choice, Quot.sound]
Spout.Lifecycle.C80_http_ready_before_bound: [propext, Quot.sound]
Spout.Lifecycle.C80_running_is_ready: [propext, Classical.choice, Quot.sound]
Spout.Lifecycle.C80_stopping_not_alive: [propext, Classical.choice, Quot.sound]
Spout.Lifecycle.C80_udp_ready_partial: [propext, Classical.choice, Quot.sound]
Spout.Lifecycle.C80_udp_ready_when_stopped: [propext, Quot.sound]
Spout.Lifecycle.C80_writer_ready: [propext, Classical.choice, Quot.sound]
Spout.Lifecycle.C81_idle_filter: [propext, Quot.sound]
Spout.Lifecycle.C81_mode_selects: [propext]
Spout.Lifecycle.C93_exits_only_if_port_taken: [propext, Quot.sound]
Spout.Lifecycle.C93_failed_stays_failed: [propext, Quot.sound]
Spout.Lifecycle.C93_failure_reported: [propext, Quot.sound]
Spout.Lifecycle.C93_http_running: [propext, Classical.choice, Quot.sound]
Spout.Lifecycle.C93_monitor_running: [propext, Classical.choice, Quot.sound]
Spout.Lifecycle.C93_never_exits: [propext, Classical.choice, Quot.sound]
Spout.Lifecycle.C93_port_taken_exits: [propext, Classical.choice, Quot.sound]
Spout.Lifecycle.C93_udp_running: [propext, Classical.choice, Quot.sound]
Spout.Pool.C86_callback_blocked_after_stop: [propext, Quot.sound]
Spout.Pool.C86_each_message_once: [propext, Quot.sound]
Spout.Pool.C86_everything_received: [propext, Classical.choice, Quot.sound]
Spout.Pool.C86_nothing_lost_or_duplicated: [propext, Quot.sound]
Spout.Pool.C86_one_worker_in_order: [propext, Quot.sound]
Spout.Pool.C86_progress: [propext]
Spout.Pool.C86_running_until_stop: [propext]
Spout.Pool.C86_waits_only_when_full: [propext, Classical.choice, Quot.sound]
Spout.Probes.C64_answers: [propext, Quot.sound]
Spout.Probes.C64_closed: [propext, Quot.sound]
Spout.Probes.C64_disabled: [propext, Quot.sound]
Spout.Probes.C64_last_state: [propext, Quot.sound]
Spout.Prom.C127_at_most_an_interval_behind: [propext, Classical.choice, Quot.sound]
Spout.Prom.C127_counted: [propext, Classical.choice, Quot.sound]
Spout.Prom.C127_labels: [propext, Quot.sound]
Spout.Prom.C127_page: [propext, Classical.choice, Quot.sound]
Spout.Prom.C127_rounds: [propext, Quot.sound]
Spout.Prom.C127_writer_labels: [propext, Quot.sound]
Spout.Prom.C53_line_unambiguous: [propext, Classical.choice, Quot.sound]
Spout.Prom.C53_parse_exact: [propext, Classical.choice, Quot.sound]
Spout.Prom.C53_render_parse: [propext, Classical.choice, Quot.sound]
Spout.Prom.C54_not_for_unsorted_labels: [propext, Classical.choice, Quot.sound]
Spout.Prom.C54_received_determined: [propext, Classical.choice, Quot.sound]
Spout.Prom.C54_serves_latest_partial: [propext, Classical.choice, Quot.sound]
Spout.Prom.C54_text_determined: [propext, Classical.choice, Quot.sound]
Spout.Prom.C55_ignored_or_crash_exactly: [propext, Classical.choice, Quot.sound]
Spout.Prom.C55_malformed_message_ignored_partial: [propext, Classical.choice, Quot.sound]
Spout.Prom.C55_malformed_message_may_crash: [propext, Classical.choice, Quot.sound]
Spout.Prom.C56_monitor_can_crash: [propext]
Spout.Prom.C56_no_brace_no_panic: [propext, Classical.choice, Quot.sound]
Spout.Prom.C56_no_crash_partial: [propext, Quot.sound]
Spout.Prom.C56_panics_exactly: [propext, Classical.choice, Quot.sound]
Spout.Prom.C56_parser_can_panic: [propext]
Spout.Prom.C57_scrapes_repeat_partial: [propext, Classical.choice, Quot.sound]
Spout.Prom.C57_scraping_can_change_what_is_served: [propext, Quot.sound]
Spout.Prom.C72_component_counters_are_served: [propext, Classical.choice, Quot.sound]
Spout.Prom.C72_component_lines_ordered: [propext, Classical.choice, Quot.sound]
Spout.Prom.C72_components_never_crash_the_monitor: [propext, Classical.choice, Quot.sound]
Spout.Prom.C72_standard_labels_sendable: [propext, Quot.sound]
Spout.Prom.C74_downsampler_statistics_shown: [propext, Classical.choice, Quot.sound]
Spout.Prom.C74_filter_statistics_shown: [propext, Classical.choice, Quot.sound]
Spout.Prom.C74_listener_statistics_shown: [propext, Classical.choice, Quot.sound]
Spout.Prom.C74_rules_sharing_a_subject: [propext, Quot.sound]
Spout.Prom.C74_writer_statistics_shown: [propext, Classical.choice, Quot.sound]
Spout.Prom.C85_downsampler_drops_shown: [propext, Classical.choice, Quot.sound]
Spout.Prom.C85_filter_drops_shown: [propext, Classical.choice, Quot.sound]
Spout.Prom.C85_never_decreases: [propext, Classical.choice, Quot.sound]
Spout.Sharing.C91_body_race: [propext, Quot.sound]
Spout.Sharing.C91_exclusive_partial: [propext, Classical.choice, Quot.sound]
Spout.Sharing.C91_race_free_partial: [propext, Classical.choice, Quot.sound]
