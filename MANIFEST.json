{"claims": [
 {"property": "C01", "status": "proved", "theorems": ["Broker.C01_job_accounting"], "note": "all histories, both queue managers"},
 {"property": "C02", "status": "proved", "theorems": ["Broker.C02_one_final_status"], "note": "corollary of the accounting identity"},
 {"property": "C03", "status": "proved", "theorems": ["Broker.C03_bounded_dispatches"], "note": "all histories, both queue managers"},
 {"property": "C04", "status": "proved", "theorems": ["Broker.C04_capable_workers"], "note": "all histories, both queue managers"},
 {"property": "C05", "status": "proved", "theorems": ["Broker.C05_payload_integrity"], "note": "all histories, both queue managers"},
 {"property": "C06", "status": "proved", "theorems": ["Broker.C06_one_outstanding_job"], "note": "all histories, both queue managers"},
 {"property": "C07", "status": "proved", "theorems": ["Broker.C07_eval_reply", "Broker.C07_eval_malformed"], "note": "all histories, both queue managers"},
 {"property": "C08", "status": "proved", "theorems": ["Broker.C08_acceptance", "Broker.C08_same_for_both"], "note": "all histories, both queue managers"},
 {"property": "C09", "status": "proved", "theorems": ["Broker.C09_freeze_unfreeze", "Broker.C09_frozen_accepts_nothing", "Broker.C09_frozen_keeps_working"], "note": "all histories, both queue managers"},
 {"property": "C10", "status": "proved", "theorems": ["Broker.C10_addressing"], "note": "all histories, both queue managers"},
 {"property": "C100", "status": "proved", "theorems": ["Broker.C100_credentials", "Broker.C100_start"], "note": "Noninterference: executions with other credentials differ only in the credentials of the requests. C100_start covers the start (log and standard error stream) for documents that differ in the credentials only."},
 {"property": "C101", "status": "proved", "theorems": ["Broker.C101_handler", "Broker.C101_same"], "note": "Connects the log of the handler (C80 to C84) with the log of the whole process, also when the handler fails, and shows that logging has no influence on the process."},
 {"property": "C102", "status": "partial", "theorems": ["Broker.C102_refuted_multi", "Broker.C102_refuted_single", "Broker.C102_uncaught", "Broker.C102_before_partial", "Broker.C102_post_partial", "Broker.C102_status", "Broker.C102_history_partial", "Broker.C102_clients_partial", "Broker.C102_no_failures"], "note": "False in general: a failing notification leaves the process undefined and a failing send of the destructor aborts it (both refuted with an execution for both managers). Proved: what each failure leads to and that nothing follows; that everything done before is what is done in an execution in which only calls on the registered sockets fail, so that C93 and C94 apply; and that status 0 means that none of these failures happened."},
 {"property": "C103", "status": "partial", "theorems": ["Broker.C103_refuted_single", "Broker.C103_refuted_multi", "Broker.C103_init", "Broker.C103_kept", "Broker.C103_for_ever", "Broker.C103_unreported", "Broker.C103_silent_partial"], "note": "False: an `init` never takes a job back (proved for all histories), so a worker that starts anew and only pings keeps the job for ever; refuted for every bound and both managers. Proved: the job stays with the worker as long as it is registered and sends no `done`; any such state can last any time; nothing is reported about the job meanwhile; a worker that falls silent loses the job within the bound of C14."},
 {"property": "C104", "status": "partial", "theorems": ["Broker.C104_refuted_forgotten", "Broker.C104_refuted_lost", "Broker.C104_refuted_reborn", "Broker.C104_unaware", "Broker.C104_safe_partial", "Broker.C104_report_partial", "Broker.C104_reported_partial", "Broker.C104_idle_partial", "Broker.C104_agree_partial", "Broker.C104_behind_partial", "Broker.C104_once_partial", "Broker.C104_deployment_partial"], "note": "False in three ways, each with a concrete execution: a report that arrives before the worker introduced itself to the new broker process is ignored and the job never reported; a lost report leaves the broker believing the worker is busy; a worker that is itself started anew can make the broker dereference a null pointer. Proved for patient workers that keep running, for any number of broker restarts (any configuration and environment each) and any losses: no broker process is brought down, reports that arrive at a broker that knows the worker are about the job it expects and reach the frontend, the worker is idle when it gets a job, it is registered at most once, the broker never believes the worker idle while it works; without losses both agree when nothing is under way; the same for whole deployments."},
 {"property": "C105", "status": "proved", "theorems": ["Broker.C105_told", "Broker.C105_registered", "Broker.C105_next", "Broker.C105_statistics"], "note": "All pairs of histories, with the same or different queue managers. C105_statistics shows that the exception for statistics is needed."},
 {"property": "C106", "status": "proved", "theorems": ["Broker.C106_clients", "Broker.C106_workers", "Broker.C106_frontend", "Broker.C106_monitor", "Broker.C106_nowhere_else", "Broker.C106_refuted_monitor"], "note": "All histories, both queue managers. C106_refuted_monitor shows that a linear bound as for the other sockets fails for the monitor. C115 gives a smaller bound for messages to the monitor with the single-queue manager."},
 {"property": "C107", "status": "proved", "theorems": ["Broker.C107_place", "Broker.C107_moves", "Broker.C107_story", "Broker.C107_refuted_twice"], "note": "All histories, both queue managers. C107_refuted_twice shows that the assumption that the job is in the broker at most once at a time is needed."},
 {"property": "C108", "status": "proved", "theorems": ["Broker.C108_exact", "Broker.C108_survives", "Broker.C108_last_words"], "note": "All reachable states, all messages, both queue managers (any lawful one). Sharpens C20: there the eval case is only a sufficient condition for safety."},
 {"property": "C109", "status": "proved", "theorems": ["Broker.C109_journal", "Broker.C109_info", "Broker.C109_fatal"], "note": "All histories, all levels, both queue managers. Entries about the dispatch of jobs (levels below info) are the subject of C81."},
 {"property": "C11", "status": "proved", "theorems": ["Broker.C11_ping"], "note": "all histories, both queue managers"},
 {"property": "C110", "status": "proved", "theorems": ["Broker.C110_numbers", "Broker.C110_outcome", "Broker.C110_cause", "Broker.C110_numbers_twice"], "note": "All histories, levels debug and trace, both queue managers. C110_numbers_twice shows that the condition of C110_numbers (the identifier entered once) is needed."},
 {"property": "C111", "status": "partial", "theorems": ["Broker.C111_multi", "Broker.C111_multi_new", "Broker.C111_single_env", "Broker.C111_single_partial", "Broker.C111_single_new_partial", "Broker.C111_single_false"], "note": "Proved in full for the multi-queue manager. For the single-queue manager proved for allocators that hand out higher and higher addresses and arrival times that tell the order of arrival; false otherwise (C111_single_false). C111_single_env: for every allocator and clock the broker goes on like a new one that reads the remaining times, with some allocator."},
 {"property": "C112", "status": "proved", "theorems": ["Broker.C112_swap", "Broker.C112_again", "Broker.C112_move", "Broker.C112_enough", "Broker.C112_tick_needed"], "note": "All histories and continuations, both queue managers. C112_tick_needed: a sign of life cannot be moved over a tick."},
 {"property": "C113", "status": "proved", "theorems": ["Broker.C113_merge", "Broker.C113_sum", "Broker.C113_quiet_needed", "Broker.C113_worker_needed", "Broker.C113_query_needed"], "note": "All histories and continuations, both queue managers. Each of the three conditions (no worker beyond the interval, no message of workers between, no query for statistics between) is shown to be needed."},
 {"property": "C114", "status": "proved", "theorems": ["Broker.C114_order", "Broker.C114_ties", "Broker.C114_multi", "Broker.C114_order_needed", "Broker.C114_sort_matters"], "note": "All messages and configurations. C114_order: no two readings equal, any sorting algorithms. C114_ties: readings may be equal, the same sorting algorithm that only compares. Same allocator on both sides (for the allocator see C71). C114_order_needed and C114_sort_matters: the conditions are needed."},
 {"property": "C115", "status": "proved", "theorems": ["Broker.C115_monitor", "Broker.C115_reserve", "Broker.C115_aborted", "Broker.C115_policy", "Broker.C115_refuted_multi"], "note": "All executions with the single-queue manager, with the default or any lawful comparator and selector; the bound is reached. Sharpens C106_monitor for this manager. C115_refuted_multi: neither bound holds for the multi-queue manager."},
 {"property": "C116", "status": "proved", "theorems": ["Broker.C116_pause", "Broker.C116_clients", "Broker.C116_short_needed"], "note": "All states, configurations, environments and queue managers. Messages of clients during the pause that the broker does not survive even while frozen (no frame, `eval` with fewer than three frames) are excluded; C116_short_needed shows that they have to be."},
 {"property": "C117", "status": "proved", "theorems": ["Broker.C117_limits", "Broker.C117_patient", "Broker.C117_positive_needed", "Broker.C117_reached"], "note": "All messages, environments, queue managers and configurations. A limit is reached when a worker is taken from the registry or when the frontend is told that a job was reassigned too many times. The monotone form asks for a maximum liveness of at least one, which C117_positive_needed shows to be necessary; it assumes nothing about the times the timer reports."},
 {"property": "C118", "status": "proved", "theorems": ["Broker.C118_removals", "Broker.C118_time_observed", "Broker.C118_failures_needed"], "note": "All pairs of configurations with the same number of failures allowed, all environments and queue managers. The two brokers may be told any times by ticks; the hypothesis compares their registries after each message, also after one that ends an execution. C118_time_observed and C118_failures_needed show that neither hypothesis can be dropped."},
 {"property": "C119", "status": "proved", "theorems": ["Broker.C119_unit", "Broker.C119_interval_needed"], "note": "All positive integer factors, so by a common finer unit all positive rational ones. Times are integers without bound in the model; that they fit the type used by the broker is the subject of C65."},
 {"property": "C12", "status": "proved", "theorems": ["Broker.C12_stale_done"], "note": "all histories, both queue managers"},
 {"property": "C120", "status": "proved", "theorems": ["Broker.C120_results", "Broker.C120_single", "Broker.C120_internal"], "note": "All reachable states of a broker with the multi-queue manager, any number of final results (done messages other than INTERNAL_ERROR: also stale, malformed and from unknown workers) of pairwise different workers, all permutations and continuations. The hypothesis that none of them alone brings the broker down excludes reports of workers without a job (C108). C120_single shows that the claim fails for the single-queue manager, C120_internal that it fails for internal errors."},
 {"property": "C121", "status": "proved", "theorems": ["Broker.C121_multi", "Broker.C121_single", "Broker.C121_multi_here", "Broker.C121_single_here", "Broker.C121_means", "Broker.C121_text_needed", "Broker.C121_numeric_needed"], "note": "All histories, started from an empty broker; any number of requests are replaced at once. For the single-queue manager the sorting algorithm is assumed to look only at arrival times. C121_text_needed shows that the text of a refusal is rightly excepted, C121_numeric_needed that malformed numbers of threads are rightly excluded. C121_multi_here and C121_single_here only regard the workers that introduce themselves in the history; C121_multi and C121_single follow from them."},
 {"property": "C122", "status": "proved", "theorems": ["Broker.C122_multi", "Broker.C122_single", "Broker.C122_text_needed", "Broker.C122_job_needed"], "note": "All histories, started from an empty broker; any number of introductions are changed at once; no assumption about allocator, clock and sorting algorithm. C122_text_needed and C122_job_needed show that the two texts and the current job are rightly excepted."},
 {"property": "C123", "status": "proved", "theorems": ["Broker.C123_multi", "Broker.C123_single", "Broker.C123_names", "Broker.C123_always_needed", "Broker.C123_numeric_needed"], "note": "All histories, started from an empty broker; all introductions are changed at once; no assumption about allocator, clock and sorting algorithm. The way of listing headers is any function that keeps the set of values of every name and keeps different lists apart, e.g. reversing the list or sending every header twice. C123_always_needed and C123_numeric_needed show that it has to be used whenever a worker introduces itself, and that numbers of threads have to be numbers."},
 {"property": "C124", "status": "proved", "theorems": ["Broker.C124_multi", "Broker.C124_single", "Broker.C124_multi_here", "Broker.C124_single_here", "Broker.C124_more", "Broker.C124_asked_needed", "Broker.C124_numeric_needed", "Broker.C124_always_needed"], "note": "All histories, started from an empty broker; no assumption about allocator, clock and sorting algorithm. The names clients ask for are any set of names that contains those of all requests of the history. C124_multi and C124_single change all introductions at once by a function for every worker that keeps the values of these names and keeps different lists apart; C124_multi_here and C124_single_here allow any change that keeps the values of these names, and require only that two introductions of a worker in the history are alike after the change iff they were before. C124_more is the case of additional headers, different ones for every worker. C124_asked_needed, C124_numeric_needed and C124_always_needed show that the assumptions are needed."},
 {"property": "C125", "status": "proved", "theorems": ["Broker.C125_multi", "Broker.C125_single", "Broker.C125_asked_needed"], "note": "All histories, started from an empty broker; no assumption about allocator, clock and sorting algorithm, nor about numbers of threads. The groups may be changed in every introduction in another way, since an introduction with the same headers and another group is ignored anyway. C125_asked_needed shows that a group that a request tells apart does matter."},
 {"property": "C126", "status": "proved", "theorems": ["Broker.C126_multi", "Broker.C126_single", "Broker.C126_numeric_needed"], "note": "All histories, started from an empty broker; no assumption about allocator, clock and sorting algorithm. Assumed: numbers of threads in the introductions and in the requests are numbers (C126_numeric_needed shows why for requests, C124_numeric_needed for introductions), and introductions repeat the headers of an earlier one in one history exactly if they do in the other one (why: C124_always_needed)."},
 {"property": "C13", "status": "proved", "theorems": ["Broker.C13_no_premature_expiry"], "note": "All histories, both managers; max_liveness at least 1 and no negative times reported by the timer (with max_liveness 0 the counter wraps around and the worker practically never expires, see C117_positive_needed)."},
 {"property": "C14", "status": "partial", "theorems": ["Broker.C14_silent_expires_partial", "Broker.C14_fresh_survives", "Broker.C14_refuted"], "note": "False for a worker that sends nothing after its init: its counter starts at 0 and wraps. Partial: a worker heard from after registration expires as promised."},
 {"property": "C15", "status": "partial", "theorems": ["Broker.C15_partial", "Broker.C15_refuted", "Broker.C15_refuted_multi"], "note": "False when a worker re-registers with other headers. Partial: holds on histories without such a re-registration."},
 {"property": "C16", "status": "proved", "theorems": ["Broker.C16_serviceable_single", "Broker.C16_serviceable_multi", "Broker.C16_lost_job_reported_single", "Broker.C16_lost_job_reported_multi"], "note": "every waiting job has a registered worker whose init frames satisfy the header frames of the client's eval; a job that loses its last one is reported FAILED while the same message is handled"},
 {"property": "C17", "status": "partial", "theorems": ["Broker.C17_work_conservation_single_partial", "Broker.C17_work_conservation_multi_partial", "Broker.C17_refuted_single", "Broker.C17_refuted_multi"], "note": "false after an INTERNAL_ERROR report (worker stays idle with waiting jobs), refuted by concrete histories; proved that every such situation began with an INTERNAL_ERROR report of the idle worker and lasted since"},
 {"property": "C18", "status": "proved", "theorems": ["Broker.C18_first_come_first_served", "Broker.C18_arrival_time"], "note": "for every permutation-returning, sorted std::sort; arrival times are clock readings of the step that queued the job"},
 {"property": "C19", "status": "proved", "theorems": ["Broker.C19_queue_step", "Broker.C19_fifo", "Broker.C19_rotation", "Broker.C19_ring_step"], "note": "newest never-used workers come first in the ring, then least recently used"},
 {"property": "C20", "status": "partial", "theorems": ["Broker.C20_partial", "Broker.C20_refuted", "Broker.C20_empty_message_crashes", "Broker.C20_eval_alone_crashes", "Broker.C20_eval_short_undefined", "Broker.C20_init_threads_crashes", "Broker.C20_idle_done_undefined"], "note": "The property is false. C20_partial: in every reachable state a message that is none of the listed hazards is handled normally. The other theorems exhibit a reachable crash or undefined behaviour for the hazards. C108 lists exactly the messages that end the process."},
 {"property": "C21", "status": "proved", "theorems": ["Broker.C21_no_late_crash"], "note": "Failures of the broker are only caused by the message being handled, never by a job accepted earlier."},
 {"property": "C22", "status": "proved", "theorems": ["Broker.C22_counters"], "note": "Counters modulo 2^64 equal the numbers of handled success and failure reports."},
 {"property": "C23", "status": "proved", "theorems": ["Broker.C23_gauges"], "note": "Gauges as reported after a timer message equal the true numbers at that tick."},
 {"property": "C24", "status": "proved", "theorems": ["Broker.C24_request_headers", "Broker.C24_worker_headers", "Broker.C24_frame", "Broker.C24_roundtrip", "Broker.C24_metadata_inert_multi", "Broker.C24_metadata_inert_single"], "note": "Held requests and registered workers carry exactly the parsed frames, for all histories; metadata has no effect on any later answer (bisimulation). For the single-queue manager the sorting algorithm is assumed not to look at metadata."},
 {"property": "C25", "status": "proved", "theorems": ["Broker.C25_hwgroup", "Broker.C25_alternatives", "Broker.C25_acceptance"], "note": "All strings; a worker that also declares a header called hwgroup additionally matches that value literally (C25_acceptance)."},
 {"property": "C26", "status": "proved", "theorems": ["Broker.C26_threads", "Broker.C26_acceptance", "Broker.C26_unparsable", "Broker.C26_unparsable_init"], "note": "All numerals below 2^64; conversion rules of std::stoul spelled out in Spec.IsCount."},
 {"property": "C27", "status": "proved", "theorems": ["Broker.C27_matching", "Broker.C27_order_independent", "Broker.C27_acceptance", "Broker.C27_malformed"], "note": "C27_malformed shows that the condition on numbers is needed."},
 {"property": "C28", "status": "proved", "theorems": ["Broker.C28_repeated_init"], "note": "all histories, both queue managers"},
 {"property": "C29", "status": "partial", "theorems": ["Broker.C29_new_declaration_counts_partial", "Broker.C29_refuted", "Broker.C29_refuted_hwgroup"], "note": "False: the old entry stays. Partial: the new declaration is registered as sent."},
 {"property": "C30", "status": "proved", "theorems": ["Broker.C30_recovery", "Broker.C30_done_ok"], "note": "All histories."},
 {"property": "C31", "status": "partial", "theorems": ["Broker.C31_clients", "Broker.C31_workers_multi", "Broker.C31_workers_partial", "Broker.C31_monitor_partial", "Broker.C31_refuted_workers_single", "Broker.C31_refuted_monitor"], "note": "FALSE as stated: the single-queue manager re-sends an empty current request to a registering worker, and a bare `progress` from a worker is forwarded to the monitor as a message without data; either leaves the ROUTER socket inside a multi-part message and the next message is merged (refutations with concrete executions of the whole process). Proved: intact delivery for clients always, for workers with the multi-queue manager always, otherwise when no such message was emitted."},
 {"property": "C32", "status": "proved", "theorems": ["Broker.C32_roundtrip", "Broker.C32_response", "Broker.C32_refuted_empty"], "note": "For every message with a key other than TERMINATE (the condition on a data frame turned out unnecessary for that direction); response direction needs a data frame: C32_refuted_empty shows a message without data is not received as sent."},
 {"property": "C33", "status": "partial", "theorems": ["Broker.C33_order_partial", "Broker.C33_prefix_partial", "Broker.C33_conservation", "Broker.C33_refuted"], "note": "FALSE as a prefix claim: notifications emitted before the notifier thread has connected, or while its pipe is full, are silently dropped (C33_refuted). Proved for all interleavings: handled + queued + dropped notifications are exactly those emitted, in order, each once; prefix when nothing was dropped."},
 {"property": "C34", "status": "partial", "theorems": ["Broker.C34_partial", "Broker.C34_address_partial", "Broker.C34_wellformed", "Broker.C34_refuted"], "note": "FALSE: nothing is escaped; C34_refuted is an execution of the whole process in which a worker's message text injects a second status. Proved for names and values without special characters; every emitted notification has paired frames."},
 {"property": "C35", "status": "proved", "theorems": ["Broker.C35_policy", "Broker.C35_counts", "Broker.C35_continues"], "note": "Exact sequence of requests and waits for every outcome sequence; the thread goes on after every notification."},
 {"property": "C36", "status": "proved", "theorems": ["Broker.C36_send", "Broker.C36_process", "Broker.C36_not_reentrant", "Broker.C36_terminates", "Broker.C36_monitor"], "note": ""},
 {"property": "C37", "status": "proved", "theorems": ["Broker.C37_values", "Broker.C37_accepted", "Broker.C37_independent", "Broker.C37_ranges"], "note": "For all documents and all conversion functions of the YAML library; the 'default' of the notifier port is indeterminate memory, see C38."},
 {"property": "C38", "status": "partial", "theorems": ["Broker.C38_partial", "Broker.C38_other_items", "Broker.C38_refuted"], "note": "FALSE: notifier_config::port has no initialiser; without notifier.port in the document the port used for HTTP requests is whatever the memory held (C38_refuted). Proved when the port is given, and for every other item always."},
 {"property": "C39", "status": "partial", "theorems": ["Broker.C39_injective", "Broker.C39_digits", "Broker.C39_descriptions", "Broker.C39_two_digits_partial", "Broker.C39_refuted"], "note": "Injectivity and lower-case digits proved for all byte strings, also for whole descriptions. FALSE: two digits per byte; bytes from 0x80 on are sign-extended and give eight digits (C39_refuted)."},
 {"property": "C40", "status": "partial", "theorems": ["Broker.C40_order", "Broker.C40_writes", "Broker.C40_names_partial", "Broker.C40_refuted"], "note": "Order proved. FALSE for names: the documented emerg, alert and notice select trace, the most verbose level (C40_refuted)."},
 {"property": "C41", "status": "proved", "theorems": ["Broker.C41_progress"], "note": "all histories, both queue managers"},
 {"property": "C42", "status": "proved", "theorems": ["Broker.C42_unknown_worker_command", "Broker.C42_unknown_inert"], "note": "all histories, both queue managers"},
 {"property": "C43", "status": "proved", "theorems": ["Broker.C43_stats_reply", "Broker.C43_frozen_flag"], "note": "all histories, both queue managers"},
 {"property": "C44", "status": "partial", "theorems": ["Broker.C44_contract_multi_partial", "Broker.C44_silent_multi_partial", "Broker.C44_single_returns_current", "Broker.C44_refuted_single", "Broker.C44_observable_single"], "note": "true for the multi-queue manager; false for the single-queue manager, which returns the current request and causes an empty message to the worker"},
 {"property": "C45", "status": "partial", "theorems": ["Broker.C45_partial", "Broker.C45_refuted", "Broker.C45_refuted_multi"], "note": "False inside the tick in which several workers expire together; partial: no job after that tick."},
 {"property": "C46", "status": "partial", "theorems": ["Broker.C46_single_partial", "Broker.C46_multi_partial", "Broker.C46_refuted"], "note": "False: worker_timers_ keeps the entry. Partial: registry and queue manager forget it."},
 {"property": "C47", "status": "proved", "theorems": ["Broker.C47_init", "Broker.C47_short_init"], "note": "all histories, both queue managers"},
 {"property": "C48", "status": "proved", "theorems": ["Broker.C48_internal_error"], "note": "All histories."},
 {"property": "C49", "status": "proved", "theorems": ["Broker.C49_roundtrip", "Broker.C49_total"], "note": ""},
 {"property": "C50", "status": "proved", "theorems": ["Broker.C50_manager", "Broker.C50_refused"], "note": ""},
 {"property": "C51", "status": "proved", "theorems": ["Broker.C51_fifo", "Broker.C51_iteration", "Broker.C51_rounds", "Broker.C51_progress"], "note": ""},
 {"property": "C52", "status": "proved", "theorems": ["Broker.C52_termination"], "note": "bound on the number of handled reports"},
 {"property": "C53", "status": "proved", "theorems": ["Broker.C53_header"], "note": ""},
 {"property": "C54", "status": "proved", "theorems": ["Broker.C54_in_progress_was_sent"], "note": "Both queue managers."},
 {"property": "C55", "status": "proved", "theorems": ["Broker.C55_monitor_clients", "Broker.C55_monitor_workers", "Broker.C55_monitor_timer", "Broker.C55_monitor_expired"], "note": "Forwarding of progress messages is C36_monitor and C10."},
 {"property": "C56", "status": "proved", "theorems": ["Broker.C56_passed_on"], "note": ""},
 {"property": "C57", "status": "proved", "theorems": ["Broker.C57_no_premature_failure"], "note": ""},
 {"property": "C58", "status": "proved", "theorems": ["Broker.C58_sockets", "Broker.C58_failures", "Broker.C58_liveness"], "note": "The conversions of yaml-cpp are parameters."},
 {"property": "C59", "status": "proved", "theorems": ["Broker.C59_failed_report", "Broker.C59_not_understood"], "note": ""},
 {"property": "C60", "status": "proved", "theorems": ["Broker.C60_accounting", "Broker.C60_nothing_vanishes"], "note": "For executions in which the broker handler has not crashed (see C20)."},
 {"property": "C61", "status": "partial", "theorems": ["Broker.C61_no_premature_removal", "Broker.C61_busy_removes_nobody", "Broker.C61_silent_removed_partial", "Broker.C61_refuted_from_handling", "Broker.C61_refuted_removal"], "note": "(a) and (b) hold; (c) holds in waiting time. Counted from the handling of the message (a) is false, in real time (c) is false; both have concrete executions."},
 {"property": "C62", "status": "proved", "theorems": ["Broker.C62_end", "Broker.C62_returns"], "note": "Hazards are those of C20; 64-bit clock readings are assumed for the timer."},
 {"property": "C63", "status": "proved", "theorems": ["Broker.C63_service"], "note": ""},
 {"property": "C64", "status": "proved", "theorems": ["Broker.C64_next_multi", "Broker.C64_bounded_multi", "Broker.C64_bounded_single"], "note": "Single-queue manager: the clock is assumed to have advanced since the job arrived."},
 {"property": "C65", "status": "proved", "theorems": ["Broker.C65_no_overflow"], "note": "for the clock stated in the hypotheses (readings in nanoseconds, not negative, below 2^63, not running backwards)"},
 {"property": "C66", "status": "proved", "theorems": ["Broker.C66_reject_text", "Broker.C66_failure_text", "Broker.C66_zero_limit_text"], "note": "Failure texts for max_request_failures > 0 (hypothesis of C66_failure_text, stated in the property); for 0 the number in the text is meaningless, shown by the witness C66_zero_limit_text."},
 {"property": "C67", "status": "proved", "theorems": ["Broker.C67_opaque_multi", "Broker.C67_opaque_single"], "note": "Relational: two histories. Job ids are replaced injectively, client identities and payloads by arbitrary functions. Single-queue manager: std::sort only looks at arrival times."},
 {"property": "C68", "status": "proved", "theorems": ["Broker.C68_munin", "Broker.C68_derive"], "note": "Model of the plug-in's dictionary and int() conversions (install/munin-broker); its socket and its fixed texts are not modelled."},
 {"property": "C69", "status": "proved", "theorems": ["Broker.C69_completable", "Broker.C69_someone_works", "Broker.C69_refuted_same_identity"], "note": "Hypotheses: identities of registered workers are distinct (otherwise false, C69_refuted_same_identity) and no idle worker has been idle since it reported an internal error (there C17 is false)."},
 {"property": "C70", "status": "proved", "theorems": ["Broker.C70_retry_multi", "Broker.C70_retry_single"], "note": ""},
 {"property": "C71", "status": "partial", "theorems": ["Broker.C71_multi", "Broker.C71_single_partial", "Broker.C71_single_false"], "note": "Proved in full for the multi-queue manager. For the single-queue manager proved for memory allocators that hand out ascending addresses; C71_single_false shows that it is false for other allocators, because the order of addresses decides which idle worker gets a job."},
 {"property": "C72", "status": "partial", "theorems": ["Broker.C72_refuted_multi", "Broker.C72_refuted_single", "Broker.C72_undefined", "Broker.C72_status_partial", "Broker.C72_start_partial"], "note": "False for exceptions that leave start_loop: C72_undefined shows that each of them, and each failure to bind a socket, ends in undefined behaviour, because the reactor's internal socket is destroyed before the wrapper of the status notifier handler that sends on it. Proved for failures before that (C72_start_partial)."},
 {"property": "C73", "status": "partial", "theorems": ["Broker.C73_end", "Broker.C73_cause", "Broker.C73_ends_partial", "Broker.C73_hang", "Broker.C73_refuted"], "note": "What holds at the end and that the end has a cause is proved in full. That the process ends is proved if the notifier thread is connected and its pipe has room when the main thread leaves the loop; C73_hang shows that it hangs forever otherwise."},
 {"property": "C74", "status": "partial", "theorems": ["Broker.C74_loop_partial", "Broker.C74_lost", "Broker.C74_refuted"], "note": "Proved for calls while the main thread is in the loop. Calls before that have no effect at all (C74_lost), so the claim is false for them."},
 {"property": "C75", "status": "partial", "theorems": ["Broker.C75_same_partial", "Broker.C75_announced_partial", "Broker.C75_refuted_announced", "Broker.C75_refuted_clock", "Broker.C75_refuted_two", "Broker.C75_refuted"], "note": "False in general: a worker that announces a job gets an empty message from the single-queue manager, and with a clock that goes back the single-queue manager sends jobs in another order. Proved without these two; with announced jobs up to messages without frames."},
 {"property": "C76", "status": "partial", "theorems": ["Broker.C76_safe_partial", "Broker.C76_report_partial", "Broker.C76_idle_partial", "Broker.C76_agree_partial", "Broker.C76_once_partial", "Broker.C76_deployment_partial", "Broker.C76_refuted", "Broker.C76_refuted_idle"], "note": "False for a worker that pings again before the last ping was answered: two `intro` answers lead to two introductions, and the second one may be handled after the worker got a job and expired. Proved for workers with at most one unanswered ping, for all behaviours of everybody else and all delays on the wire; and for deployments in which all workers behave like this."},
 {"property": "C77", "status": "partial", "theorems": ["Broker.C77_present", "Broker.C77_credentials_partial", "Broker.C77_refuted"], "note": "False for user names with a colon (libcurl takes the part before the first colon) and for NUL characters; proved otherwise."},
 {"property": "C78", "status": "partial", "theorems": ["Broker.C78_no_endless_work", "Broker.C78_goes_on_partial", "Broker.C78_rest_partial", "Broker.C78_reported_partial", "Broker.C78_every_job_partial", "Broker.C78_refuted"], "note": "The work always ends (proved in full). That it ends at rest with every job reported is proved for workers with at most one unanswered ping (otherwise C76_refuted) and if no worker has been idle since it reported an internal error; after an internal error it is false (C78_refuted)."},
 {"property": "C79", "status": "partial", "theorems": ["Broker.C79_one", "Broker.C79_evenly_partial", "Broker.C79_single", "Broker.C79_refuted", "Broker.C79_refuted_idle"], "note": "Proved in full: an accepted job goes to exactly one worker (multi-queue), and the single-queue manager sends it at once whenever an idle worker can do it. Even distribution of the multi-queue manager is proved for jobs that all workers of a group or none of them can do, while no worker comes or goes and no internal error is reported; after an internal error it is false (C79_refuted), and the multi-queue manager may let a job wait for a busy worker although another one is idle (C79_refuted_idle)."},
 {"property": "C80", "status": "proved", "theorems": ["Broker.C80_same", "Broker.C80_histories", "Broker.C80_filter", "Broker.C80_off"], "note": "C80_same is about one message, including messages that end in an exception or undefined behaviour; C80_histories and C80_filter about histories."},
 {"property": "C81", "status": "partial", "theorems": ["Broker.C81_sent_partial", "Broker.C81_sent_multi", "Broker.C81_rejected", "Broker.C81_expired", "Broker.C81_frozen", "Broker.C81_sent_refuted", "Broker.C81_outcome_refuted"], "note": "Proved in full for the multi-queue manager, and for rejections, expired workers and freezing with both managers. With the single-queue manager the entries about dispatched jobs are proved right while no worker registers with a job; then the claim is false (C81_sent_refuted). How a job ended cannot be told from the log (C81_outcome_refuted). C109 and C110 say more about the entries."},
 {"property": "C82", "status": "partial", "theorems": ["Broker.C82_lines_partial", "Broker.C82_characters", "Broker.C82_refuted"], "note": "Proved for messages whose frames contain no line feed; otherwise false (C82_refuted). C82_characters has no condition."},
 {"property": "C83", "status": "proved", "theorems": ["Broker.C83_contents", "Broker.C83_identity", "Broker.C83_headers"], "note": "Component theorems; what the broker itself does with its registry is in C13-C15, C28, C29, C60. The condition of C83_contents, that different objects are added, says that no pointer is added twice."},
 {"property": "C84", "status": "proved", "theorems": ["Broker.C84_conversation", "Broker.C84_answered", "Broker.C84_count", "Broker.C84_split"], "note": "Executions of the whole process that have not ended. C84_conversation holds at every moment, also in the middle of an answer; C84_count and C84_split say that the specification is unambiguous."},
 {"property": "C85", "status": "proved", "theorems": ["Broker.C85_fifo", "Broker.C85_calls", "Broker.C85_clock", "Broker.C85_still_false", "Broker.C85_back_false"], "note": "Refinement of the single-queue manager to a plain list of requests in order of arrival (Spec/Fifo.lean), and from it equality of everything the broker sends. C85_still_false and C85_back_false show that the condition on the clock is needed."},
 {"property": "C86", "status": "proved", "theorems": ["Broker.C86_multi", "Broker.C86_single", "Broker.C86_multi_history", "Broker.C86_single_history"], "note": "For the single-queue manager as long as arrival times tell the order of arrival (see C85)."},
 {"property": "C87", "status": "proved", "theorems": ["Broker.C87_rota", "Broker.C87_calls"], "note": "Refinement of the multi-queue manager to a line of promises (Spec/Rota.lean): for all sequences of calls of the component, and for the broker."},
 {"property": "C88", "status": "proved", "theorems": ["Broker.C88_interchangeable"], "note": "For all implementations of the interface, by coinduction on the answers; C85 and C87 are instances."},
 {"property": "C89", "status": "proved", "theorems": ["Broker.C89_default", "Broker.C89_accounting", "Broker.C89_dispatch", "Broker.C89_order", "Broker.C89_busy", "Broker.C89_completable", "Broker.C89_contract_needed"], "note": "The single-queue manager as a template with arbitrary comparator and selector; contracts in Spec/Policy.lean. C89_contract_needed shows what a selector outside its contract does. C89_busy states the exception after an internal error, which is real (C17_refuted_single)."},
 {"property": "C90", "status": "proved", "theorems": ["Broker.Reactor.C90_sockets", "Broker.Reactor.C90_routing", "Broker.Reactor.C90_calls", "Broker.Reactor.C90_async", "Broker.Reactor.C90_not_reentrant", "Broker.Reactor.C90_returns", "Broker.Reactor.C90_mixed_up", "Broker.Reactor.C90_recursion"], "note": "Model/Loop.lean: the reactor with arbitrary sockets and handlers, calls nested as in the code, any number of asynchronous handlers. The conditions (messages with frames, handlers in layers) are needed: C90_mixed_up, C90_recursion."},
 {"property": "C91", "status": "proved", "theorems": ["Broker.Reactor.C91_refines", "Broker.Reactor.C91_complete", "Broker.Reactor.C91_not_reentrant"], "note": "Relates Model/Loop.lean (calls nested as in the code, messages sent at once) with the broker's two handlers to Model/Reactor.lean (messages queued and sent after the call), in both directions, for every program for the broker handler whose result is that of step."},
 {"property": "C92", "status": "partial", "theorems": ["Broker.C92_multi", "Broker.C92_multi_workers", "Broker.C92_multi_jobs", "Broker.C92_groups", "Broker.C92_single_partial", "Broker.C92_single_workers_partial", "Broker.C92_single_jobs_partial", "Broker.C92_single_alloc_false", "Broker.C92_single_clock_false", "Broker.C92_single_false"], "note": "Proved for the multi-queue manager. For the single-queue manager proved under the condition that arrival times tell the order of arrival and later worker objects get higher addresses; refuted without either of the conditions."},
 {"property": "C93", "status": "partial", "theorems": ["Broker.C93_refuted_multi", "Broker.C93_refuted_single", "Broker.C93_whole_partial", "Broker.C93_frames_partial", "Broker.C93_pieces_partial", "Broker.C93_history_partial", "Broker.C93_ends", "Broker.C93_no_failures"], "note": "False: the reactor ignores the result of receive_message, so the rest of a half-read message is taken for a message of its own, from the peer named by one of its frames (witness: a job counts as done although its worker said nothing). Proved: true as long as no recv fails; in general no frame is lost, invented or moved, messages are never mixed, the handler still follows its histories, and a message left without content ends the broker."},
 {"property": "C94", "status": "partial", "theorems": ["Broker.C94_refuted_multi", "Broker.C94_refuted_single", "Broker.C94_clients_partial", "Broker.C94_sockets_partial", "Broker.C94_swallowed_partial", "Broker.C94_handler"], "note": "False: after a send that fails in the middle of a message the next message on the socket is appended to it and goes to the wrong peer. Proved: true if only first frames fail; exactly one further message is swallowed otherwise; nothing else in the broker is affected."},
 {"property": "C95", "status": "partial", "theorems": ["Broker.C95_refuted_multi", "Broker.C95_refuted_single", "Broker.C95_poll", "Broker.C95_wait", "Broker.C95_no_failures_partial"], "note": "False: what zmq::poll throws leaves start_loop and makes the reactor be destroyed in the wrong order (undefined behaviour); what recv throws in the notifier thread ends the process by std::terminate. Proved that this always happens, and that the process is as before as long as no wait fails."},
 {"property": "C96", "status": "proved", "theorems": ["Broker.C96_multi", "Broker.C96_single"], "note": "Simulation between the two executions, generalised from the one between memory layouts (C71). The texts in which a worker is named are compared up to this name; C66 says which worker it is."},
 {"property": "C97", "status": "partial", "theorems": ["Broker.C97_multi_partial", "Broker.C97_single_partial", "Broker.C97_refuted_multi", "Broker.C97_refuted_single"], "note": "The bound is false: worker_timers_ keeps an entry (and with it the worker object) for every registration there has ever been, so a broker with no workers and no jobs keeps arbitrarily much (refuted for every number). Proved instead: the exact number of entries in all containers of the handler, the registry and the queue manager."},
 {"property": "C98", "status": "partial", "theorems": ["Broker.C98_end_partial", "Broker.C98_thread", "Broker.C98_manager_partial", "Broker.C98_refuted_start", "Broker.C98_refuted_end"], "note": "False in general: when the sockets cannot be created, and when an exception leaves the main loop, nothing of level error or above is written (both refuted with an execution). Proved: the orderly end is exactly what the critical entry of the main thread stands for, the entries of the notifier thread cannot be mistaken for it, and an unknown queue manager is reported."},
 {"property": "C99", "status": "partial", "theorems": ["Broker.C99_entries", "Broker.C99_text", "Broker.C99_partial", "Broker.C99_refuted"], "note": "False in general: if curl_easy_init gives no handle, curl_post returns normally, nothing is sent and nothing is logged (refuted). Proved: every failed request has its entry and every entry of the notifier thread its failed request, in order; with handles, a notification that was taken is delivered or reported four times in a row."}
]}
