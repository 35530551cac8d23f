# Axioms each property theorem depends on

Output of `#print axioms` for the theorems named in `MANIFEST.json`, grouped.

## propext

`C32_refuted_empty`, `C32_response`, `C32_roundtrip`, `C40_names_partial`, `C40_order`, `C40_refuted`, `C40_writes`, `C50_refused`, `C53_header`, `C94_swallowed_partial`

## propext, Classical.choice, Quot.sound

`C01_job_accounting`, `C02_one_final_status`, `C03_bounded_dispatches`, `C04_capable_workers`, `C05_payload_integrity`, `C06_one_outstanding_job`, `C07_eval_malformed`, `C07_eval_reply`, `C08_acceptance`, `C08_same_for_both`, `C09_freeze_unfreeze`, `C09_frozen_accepts_nothing`, `C09_frozen_keeps_working`, `C100_credentials`, `C101_handler`, `C101_same`, `C102_before_partial`, `C102_clients_partial`, `C102_history_partial`, `C102_no_failures`, `C102_post_partial`, `C102_refuted_multi`, `C102_refuted_single`, `C102_status`, `C102_uncaught`, `C103_for_ever`, `C103_init`, `C103_kept`, `C103_refuted_multi`, `C103_refuted_single`, `C103_silent_partial`, `C103_unreported`, `C104_agree_partial`, `C104_behind_partial`, `C104_deployment_partial`, `C104_idle_partial`, `C104_once_partial`, `C104_refuted_forgotten`, `C104_refuted_lost`, `C104_refuted_reborn`, `C104_report_partial`, `C104_reported_partial`, `C104_safe_partial`, `C104_unaware`, `C105_next`, `C105_registered`, `C105_statistics`, `C105_told`, `C106_clients`, `C106_frontend`, `C106_monitor`, `C106_nowhere_else`, `C106_refuted_monitor`, `C106_workers`, `C107_moves`, `C107_place`, `C107_refuted_twice`, `C107_story`, `C108_exact`, `C108_last_words`, `C108_survives`, `C109_fatal`, `C109_info`, `C109_journal`, `C10_addressing`, `C110_cause`, `C110_numbers`, `C110_numbers_twice`, `C110_outcome`, `C111_multi`, `C111_multi_new`, `C111_single_env`, `C111_single_false`, `C111_single_new_partial`, `C111_single_partial`, `C112_again`, `C112_enough`, `C112_move`, `C112_swap`, `C112_tick_needed`, `C113_merge`, `C113_query_needed`, `C113_quiet_needed`, `C113_sum`, `C113_worker_needed`, `C114_multi`, `C114_order`, `C114_order_needed`, `C114_sort_matters`, `C114_ties`, `C115_aborted`, `C115_monitor`, `C115_policy`, `C115_refuted_multi`, `C115_reserve`, `C116_clients`, `C116_pause`, `C116_short_needed`, `C117_limits`, `C117_patient`, `C117_positive_needed`, `C117_reached`, `C118_failures_needed`, `C118_removals`, `C118_time_observed`, `C119_interval_needed`, `C119_unit`, `C11_ping`, `C120_internal`, `C120_results`, `C120_single`, `C121_means`, `C121_multi`, `C121_multi_here`, `C121_numeric_needed`, `C121_single`, `C121_single_here`, `C121_text_needed`, `C122_job_needed`, `C122_multi`, `C122_single`, `C122_text_needed`, `C123_always_needed`, `C123_multi`, `C123_names`, `C123_numeric_needed`, `C123_single`, `C124_always_needed`, `C124_asked_needed`, `C124_more`, `C124_multi`, `C124_multi_here`, `C124_numeric_needed`, `C124_single`, `C124_single_here`, `C125_asked_needed`, `C125_multi`, `C125_single`, `C126_multi`, `C126_numeric_needed`, `C126_single`, `C12_stale_done`, `C13_no_premature_expiry`, `C14_fresh_survives`, `C14_refuted`, `C14_silent_expires_partial`, `C15_partial`, `C15_refuted`, `C15_refuted_multi`, `C16_lost_job_reported_multi`, `C16_lost_job_reported_single`, `C16_serviceable_multi`, `C16_serviceable_single`, `C17_refuted_multi`, `C17_refuted_single`, `C17_work_conservation_multi_partial`, `C17_work_conservation_single_partial`, `C18_arrival_time`, `C18_first_come_first_served`, `C19_fifo`, `C19_queue_step`, `C19_ring_step`, `C19_rotation`, `C20_empty_message_crashes`, `C20_eval_alone_crashes`, `C20_eval_short_undefined`, `C20_idle_done_undefined`, `C20_init_threads_crashes`, `C20_partial`, `C20_refuted`, `C21_no_late_crash`, `C22_counters`, `C23_gauges`, `C24_frame`, `C24_metadata_inert_multi`, `C24_metadata_inert_single`, `C24_request_headers`, `C24_roundtrip`, `C24_worker_headers`, `C25_acceptance`, `C25_alternatives`, `C25_hwgroup`, `C26_acceptance`, `C26_threads`, `C26_unparsable`, `C26_unparsable_init`, `C27_acceptance`, `C27_malformed`, `C27_matching`, `C27_order_independent`, `C28_repeated_init`, `C29_new_declaration_counts_partial`, `C29_refuted`, `C29_refuted_hwgroup`, `C30_done_ok`, `C30_recovery`, `C31_clients`, `C31_monitor_partial`, `C31_refuted_monitor`, `C31_refuted_workers_single`, `C31_workers_multi`, `C31_workers_partial`, `C33_conservation`, `C33_order_partial`, `C33_prefix_partial`, `C33_refuted`, `C34_address_partial`, `C34_partial`, `C34_refuted`, `C34_wellformed`, `C35_continues`, `C35_counts`, `C35_policy`, `C36_monitor`, `C36_not_reentrant`, `C36_process`, `C36_send`, `C36_terminates`, `C37_ranges`, `C38_refuted`, `C39_descriptions`, `C39_digits`, `C39_injective`, `C39_refuted`, `C39_two_digits_partial`, `C41_progress`, `C42_unknown_inert`, `C42_unknown_worker_command`, `C43_frozen_flag`, `C43_stats_reply`, `C44_contract_multi_partial`, `C44_observable_single`, `C44_refuted_single`, `C44_silent_multi_partial`, `C44_single_returns_current`, `C45_partial`, `C45_refuted`, `C45_refuted_multi`, `C46_multi_partial`, `C46_refuted`, `C46_single_partial`, `C47_init`, `C47_short_init`, `C48_internal_error`, `C49_roundtrip`, `C49_total`, `C50_manager`, `C51_fifo`, `C51_iteration`, `C51_progress`, `C51_rounds`, `C52_termination`, `C54_in_progress_was_sent`, `C55_monitor_clients`, `C55_monitor_expired`, `C55_monitor_timer`, `C55_monitor_workers`, `C56_passed_on`, `C57_no_premature_failure`, `C58_failures`, `C58_liveness`, `C58_sockets`, `C59_failed_report`, `C59_not_understood`, `C60_accounting`, `C60_nothing_vanishes`, `C61_busy_removes_nobody`, `C61_no_premature_removal`, `C61_refuted_from_handling`, `C61_refuted_removal`, `C61_silent_removed_partial`, `C62_end`, `C62_returns`, `C63_service`, `C64_bounded_multi`, `C64_bounded_single`, `C64_next_multi`, `C65_no_overflow`, `C66_failure_text`, `C66_reject_text`, `C66_zero_limit_text`, `C67_opaque_multi`, `C67_opaque_single`, `C68_derive`, `C68_munin`, `C69_completable`, `C69_refuted_same_identity`, `C69_someone_works`, `C70_retry_multi`, `C70_retry_single`, `C71_multi`, `C71_single_false`, `C71_single_partial`, `C72_refuted_multi`, `C72_refuted_single`, `C72_start_partial`, `C72_status_partial`, `C72_undefined`, `C73_cause`, `C73_end`, `C73_ends_partial`, `C73_hang`, `C73_refuted`, `C74_loop_partial`, `C74_lost`, `C74_refuted`, `C75_announced_partial`, `C75_refuted`, `C75_refuted_announced`, `C75_refuted_clock`, `C75_refuted_two`, `C75_same_partial`, `C76_agree_partial`, `C76_deployment_partial`, `C76_idle_partial`, `C76_once_partial`, `C76_refuted`, `C76_refuted_idle`, `C76_report_partial`, `C76_safe_partial`, `C77_credentials_partial`, `C77_present`, `C77_refuted`, `C78_every_job_partial`, `C78_goes_on_partial`, `C78_no_endless_work`, `C78_refuted`, `C78_reported_partial`, `C78_rest_partial`, `C79_evenly_partial`, `C79_one`, `C79_refuted`, `C79_refuted_idle`, `C79_single`, `C80_filter`, `C80_histories`, `C80_off`, `C80_same`, `C81_expired`, `C81_frozen`, `C81_outcome_refuted`, `C81_rejected`, `C81_sent_multi`, `C81_sent_partial`, `C81_sent_refuted`, `C82_characters`, `C82_lines_partial`, `C82_refuted`, `C83_headers`, `C84_answered`, `C84_conversation`, `C84_count`, `C84_split`, `C85_back_false`, `C85_calls`, `C85_clock`, `C85_fifo`, `C85_still_false`, `C86_multi`, `C86_multi_history`, `C86_single`, `C86_single_history`, `C87_calls`, `C87_rota`, `C88_interchangeable`, `C89_accounting`, `C89_busy`, `C89_completable`, `C89_contract_needed`, `C89_default`, `C89_dispatch`, `C89_order`, `C92_groups`, `C92_multi`, `C92_multi_jobs`, `C92_multi_workers`, `C92_single_alloc_false`, `C92_single_clock_false`, `C92_single_false`, `C92_single_jobs_partial`, `C92_single_partial`, `C92_single_workers_partial`, `C93_ends`, `C93_frames_partial`, `C93_history_partial`, `C93_no_failures`, `C93_pieces_partial`, `C93_refuted_multi`, `C93_refuted_single`, `C93_whole_partial`, `C94_clients_partial`, `C94_handler`, `C94_refuted_multi`, `C94_refuted_single`, `C94_sockets_partial`, `C95_no_failures_partial`, `C95_poll`, `C95_refuted_multi`, `C95_refuted_single`, `C95_wait`, `C96_multi`, `C96_single`, `C97_multi_partial`, `C97_refuted_multi`, `C97_refuted_single`, `C97_single_partial`, `C98_end_partial`, `C98_refuted_end`, `C98_refuted_start`, `C98_thread`, `C99_entries`, `C99_partial`, `C99_refuted`, `C99_text`, `Reactor.C90_async`, `Reactor.C90_calls`, `Reactor.C90_mixed_up`, `Reactor.C90_not_reentrant`, `Reactor.C90_recursion`, `Reactor.C90_returns`, `Reactor.C90_routing`, `Reactor.C90_sockets`, `Reactor.C91_complete`, `Reactor.C91_not_reentrant`, `Reactor.C91_refines`

## propext, Quot.sound

`C100_start`, `C37_accepted`, `C37_independent`, `C37_values`, `C38_other_items`, `C38_partial`, `C83_contents`, `C83_identity`, `C98_manager_partial`
