{"id": "C01", "title": "Job accounting", "statement": "At every point of every history, for each job id: the number of evaluation requests the broker accepted for that id plus the number of jobs it adopted from workers that introduced themselves while already running that id equals the number of jobs with that id it still holds (running on a registered worker or waiting) plus the number of final job-status notifications it sent to the frontend for that id. No accepted job is silently lost or duplicated.", "quantifier": "all finite histories of client, worker and timer messages, all configurations, all allocator/clock/sort choices, both queue managers", "why_tests_cant": "the claim is about arbitrary interleavings of failures, timeouts, re-registrations and reassignments", "anchors": ["src/handlers/broker_handler.cpp: process_client_eval, process_worker_init, process_worker_done, process_timer, reassign_request, check_failure_count", "src/queuing/single_queue_manager.h", "src/queuing/multi_queue_manager.cpp"]}
{"id": "C02", "title": "Exactly one final status per accepted job", "statement": "If a job id was accepted exactly once and no worker ever introduced itself as already running it, the frontend receives at most one final job-status notification for it, and as long as it received none the broker still holds the job.", "quantifier": "all histories, both queue managers", "why_tests_cant": "needs every order of done/timeout/reassign events", "anchors": ["src/handlers/broker_handler.cpp", "src/notifier/reactor_status_notifier.cpp"]}
{"id": "C03", "title": "Bounded number of dispatches", "statement": "With max_request_failures = N, the broker sends the evaluation message of an accepted job to workers at most max(1,N) times in total.", "quantifier": "all histories and all N, including N=0 and simultaneous worker deaths", "why_tests_cant": "unbounded number of failure patterns; interaction of timeouts with reassignments", "anchors": ["src/handlers/broker_handler.cpp: check_failure_count, reassign_request, process_timer", "src/worker.h: request::failure_count"]}
{"id": "C04", "title": "Jobs go only to capable workers", "statement": "Every evaluation message the broker sends goes to the identity of a worker that is registered at that moment and whose declared capabilities (hwgroup and headers from its init message) satisfy every header of the client's request.", "quantifier": "all histories, all header sets", "why_tests_cant": "matching must hold on every path that dispatches (direct, from queue, after failure, after timeout)", "anchors": ["src/handlers/broker_handler.cpp: send_request", "src/worker.cpp: worker::check_headers", "src/queuing/single_queue_manager.h", "src/queuing/multi_queue_manager.cpp"]}
{"id": "C05", "title": "Payload integrity", "statement": "Every evaluation message sent to a worker is exactly 'eval', the job id and the frames after the empty delimiter of some earlier eval message from a client, unmodified and in order; headers and metadata are never forwarded.", "quantifier": "all histories and all frame contents", "why_tests_cant": "quantifies over all payloads and all reassignment paths", "anchors": ["src/handlers/broker_handler.cpp: process_client_eval, send_request", "src/worker.h: job_request_data"]}
{"id": "C06", "title": "One outstanding job per worker", "statement": "The number of evaluation messages sent to a worker identity never exceeds the number of done messages received from it plus the number of its init messages: a worker is never given a second job before it reported on the first or re-registered.", "quantifier": "all histories", "why_tests_cant": "interleavings of failure reassignment and queue dispatch", "anchors": ["src/handlers/broker_handler.cpp", "src/queuing/single_queue_manager.h", "src/queuing/multi_queue_manager.cpp"]}
{"id": "C07", "title": "Reply protocol of eval", "statement": "A well-formed eval message is always answered to its sender with 'ack' first and with exactly one 'accept' or 'reject' last; an eval without the empty delimiter frame is answered with 'ack' only and changes nothing.", "quantifier": "all well-formed messages in all reachable states", "why_tests_cant": "all header/payload combinations and states", "anchors": ["src/handlers/broker_handler.cpp: process_client_eval"]}
{"id": "C08", "title": "Acceptance condition", "statement": "A well-formed eval is accepted iff the broker is not frozen and at least one registered worker satisfies its headers; this decision is the same for both queue managers.", "quantifier": "all reachable states, all requests", "why_tests_cant": "depends on all registration/expiry histories", "anchors": ["src/handlers/broker_handler.cpp: process_client_eval", "src/queuing/single_queue_manager.h: enqueue_request", "src/queuing/multi_queue_manager.cpp: enqueue_request"]}
{"id": "C09", "title": "Freeze", "statement": "After freeze and until unfreeze no eval is accepted, whatever other messages arrive, and no job enters the broker except one that a worker announces at registration as already running; unfreeze restores acceptance; jobs already held continue to be processed. Freezing never affects workers, queues or timers.", "quantifier": "all histories between freeze and unfreeze", "why_tests_cant": "all message sequences", "anchors": ["src/handlers/broker_handler.cpp: process_client_freeze, process_client_unfreeze, process_client_eval"]}
{"id": "C10", "title": "Replies are correctly addressed", "statement": "Messages to clients are emitted only while handling a client message and only to the identity that sent it; messages to the monitor carry only the monitor identity; every message the handler emits is addressed to one of workers, clients, monitor, status_notifier.", "quantifier": "all messages in all states", "why_tests_cant": "must hold for all paths", "anchors": ["src/handlers/broker_handler.cpp", "src/broker_connect.cpp"]}
{"id": "C11", "title": "Ping answers reflect registration", "statement": "A ping is answered to its sender with 'pong' if a worker with this identity is registered and with 'intro' otherwise, and nothing else is emitted.", "quantifier": "all reachable states and identities", "why_tests_cant": "registration status depends on the whole history", "anchors": ["src/handlers/broker_handler.cpp: process_worker_ping"]}
{"id": "C12", "title": "Stale or foreign done messages are ignored", "statement": "A done message from an unregistered identity, with fewer than three frames, or whose job id differs from the job the sender is running emits nothing and changes no job, queue or statistics (only the sender's heartbeat is refreshed).", "quantifier": "all reachable states and messages", "why_tests_cant": "late messages after reassignment can come in any order", "anchors": ["src/handlers/broker_handler.cpp: process_worker_done"]}
{"id": "C13", "title": "No premature expiry", "statement": "A worker heard from at some moment (other than by its registering init) stays registered as long as the elapsed time reported since then is at most max_liveness * ping_interval, whatever other messages arrive.", "quantifier": "all histories, all tick sizes, all configurations with max_liveness >= 1", "why_tests_cant": "unbounded tick sequences", "anchors": ["src/handlers/broker_handler.cpp: on_request, process_timer"]}
{"id": "C14", "title": "Silent workers are eventually expired", "statement": "A registered worker from which nothing more is heard is removed after a bounded amount of elapsed time: max_liveness intervals, each overshooting by at most one tick.", "quantifier": "all histories, tick sequences and configurations", "why_tests_cant": "needs unbounded time and the initial value of the counter", "anchors": ["src/handlers/broker_handler.cpp: process_timer", "src/worker.cpp: worker::worker (liveness(0))"]}
{"id": "C15", "title": "Identities are unique", "statement": "At most one registered worker exists per identity.", "quantifier": "all histories", "why_tests_cant": "depends on re-init sequences", "anchors": ["src/handlers/broker_handler.cpp: process_worker_init", "src/worker_registry.cpp"]}
{"id": "C16", "title": "Waiting jobs are serviceable", "statement": "Every job waiting in a queue can be processed by at least one currently registered worker (with the multi-queue manager: by the worker whose queue it is in); jobs that lose their last capable worker are handed back and reported.", "quantifier": "all histories, both managers", "why_tests_cant": "depends on order of expirations", "anchors": ["src/queuing/single_queue_manager.h: worker_terminated, enqueue_request", "src/queuing/multi_queue_manager.cpp"]}
{"id": "C17", "title": "Work conservation", "statement": "No registered worker is idle while a job it could take is waiting (single: any waiting job whose headers it satisfies; multi: any job in its own queue).", "quantifier": "all histories", "why_tests_cant": "stalls show only for specific failure interleavings", "anchors": ["src/handlers/broker_handler.cpp: process_worker_done", "src/queuing/single_queue_manager.h", "src/queuing/multi_queue_manager.cpp"]}
{"id": "C18", "title": "First come first served (single queue)", "statement": "Whenever a worker takes a waiting job under the single-queue manager, no other waiting job it satisfies has a strictly earlier arrival time, whatever order the unspecified-stability sort leaves ties in.", "quantifier": "all queue contents, all comparator-conforming sorts", "why_tests_cant": "std::sort is unstable; all queue contents", "anchors": ["src/queuing/single_queue_manager.h: assign_request, fcfs_job_comparator"]}
{"id": "C19", "title": "Per-worker FIFO and rotation (multi queue)", "statement": "Under the multi-queue manager jobs waiting for a worker are dispatched to it in exactly the order they were enqueued for it, and a new job goes to the first capable worker in a ring, which then moves to the end; workers never used come first in the ring, the newest of them at the very front, then the used ones, the least recently used first.", "quantifier": "all operation sequences", "why_tests_cant": "unbounded histories", "anchors": ["src/queuing/multi_queue_manager.cpp"]}
{"id": "C20", "title": "Robustness against malformed messages", "statement": "No message from a client or worker can terminate the broker or trigger undefined behaviour.", "quantifier": "all messages in all reachable states", "why_tests_cant": "adversarial inputs", "anchors": ["src/handlers/broker_handler.cpp", "src/worker.cpp: count_matcher"]}
{"id": "C21", "title": "Accepted jobs never bring the broker down later", "statement": "Once a job has been accepted, no later dispatch, failure report, timeout or reassignment of it raises an exception; timer ticks never crash the broker.", "quantifier": "all reachable states", "why_tests_cant": "header checks against workers that register later", "anchors": ["src/handlers/broker_handler.cpp: process_timer, reassign_request", "src/worker.cpp: count_matcher::match"]}
{"id": "C22", "title": "Cumulative counters", "statement": "The reported evaluated-jobs equals (modulo 2^64) the number of OK final notifications sent so far and failed-jobs the number of failure reports (FAILED or INTERNAL_ERROR) handled so far.", "quantifier": "all histories", "why_tests_cant": "unbounded histories", "anchors": ["src/handlers/broker_handler.cpp: process_worker_done, process_client_get_runtime_stats"]}
{"id": "C23", "title": "Gauges are consistent", "statement": "Right after each timer tick the reported worker-count, idle-worker-count, jobs-in-progress and queued-jobs equal the true numbers, and worker-count = idle-worker-count + jobs-in-progress at all later times until the next tick.", "quantifier": "all histories", "why_tests_cant": "all states", "anchors": ["src/handlers/broker_handler.cpp: process_timer"]}
{"id": "C24", "title": "Header and metadata parsing", "statement": "A header frame k=v (split at the first '=') constrains worker header k to value v; frames named meta.x only become metadata x (first one wins) and never affect routing; parsing inverts the obvious encoding.", "quantifier": "all header lists", "why_tests_cant": "all strings, including '=' in values, duplicate keys and frames without '='", "anchors": ["src/handlers/broker_handler.cpp: process_client_eval, process_worker_init"]}
{"id": "C25", "title": "hwgroup alternatives", "statement": "A requested hwgroup value a|b|c matches a worker iff its hwgroup is one of the alternatives (a trailing empty alternative does not count).", "quantifier": "all strings", "why_tests_cant": "all strings", "anchors": ["src/worker.cpp: multiple_string_matcher::match"]}
{"id": "C26", "title": "threads is a numeric bound", "statement": "A request for m threads matches a worker offering n threads iff m <= n, for all decimal numerals below 2^64; unparsable numbers raise.", "quantifier": "all numerals and strings", "why_tests_cant": "all strings; stoul corner cases", "anchors": ["src/worker.cpp: count_matcher"]}
{"id": "C27", "title": "Header matching is order-independent", "statement": "Whether a worker satisfies a set of request headers depends only on the set of headers: every requested header must be satisfied by some declared header of the same name; order and repetition are irrelevant (when no numeric header is malformed).", "quantifier": "all header multisets", "why_tests_cant": "all permutations", "anchors": ["src/worker.cpp: worker::check_headers, worker::check_header"]}
{"id": "C28", "title": "Repeated identical init is a no-op", "statement": "An init from a registered worker with the same headers changes nothing but the heartbeat and emits nothing; headers count as the same iff for each name the sequence of values is the same.", "quantifier": "all reachable states", "why_tests_cant": "all header lists", "anchors": ["src/handlers/broker_handler.cpp: process_worker_init", "src/worker.cpp: worker::headers_equal"]}
{"id": "C29", "title": "Re-registration replaces the worker", "statement": "After an init message from a known identity with changed capabilities (headers or hwgroup) the broker routes according to the new capabilities only.", "quantifier": "all reachable states", "why_tests_cant": "histories of re-registration", "anchors": ["src/handlers/broker_handler.cpp: process_worker_init", "src/worker.cpp: worker::headers_equal"]}
{"id": "C30", "title": "Recovery after broker restart", "statement": "After a restart, a worker's first message other than init is answered so that it re-introduces itself (ping gives intro); if it introduces itself with its current job, then its done OK message yields exactly the final OK notification for that job.", "quantifier": "all identities, job ids and header sets", "why_tests_cant": "all inputs", "anchors": ["src/handlers/broker_handler.cpp: process_worker_ping, process_worker_init, process_worker_done"]}
{"id": "C31", "title": "Messages are delivered to the addressed peer intact", "statement": "Every message the broker emits for workers, clients or monitor arrives at the addressed peer (if connected) with exactly its frames, and no message is merged into another.", "quantifier": "all histories", "why_tests_cant": "framing state of the socket carries over between messages", "anchors": ["src/reactor/router_socket_wrapper.cpp: send_message, receive_message", "src/queuing/single_queue_manager.h: add_worker", "src/handlers/broker_handler.cpp: process_worker_progress"]}
{"id": "C32", "title": "In-process framing round-trip", "statement": "A notification passed to the asynchronous handler arrives there with the same key, identity and frames, for any contents (key not TERMINATE, at least one data frame).", "quantifier": "all messages", "why_tests_cant": "all contents and lengths", "anchors": ["src/reactor/reactor.cpp: asynchronous_handler_wrapper::operator(), handler_thread, send_response"]}
{"id": "C33", "title": "Notifications are handled in order, once, under every interleaving", "statement": "For every interleaving of the main loop and the notifier thread, the notifications processed by the notifier are a prefix of those emitted, in the same order, each once.", "quantifier": "all schedules", "why_tests_cant": "schedules", "anchors": ["src/reactor/reactor.cpp: asynchronous_handler_wrapper"]}
{"id": "C34", "title": "HTTP parameters survive encoding", "statement": "The frontend decodes from the POST body exactly the parameters of the notification.", "quantifier": "all parameter values", "why_tests_cant": "all strings, including separators", "anchors": ["src/helpers/curl.cpp: get_http_query", "src/handlers/status_notifier_handler.cpp"]}
{"id": "C35", "title": "Notification retry policy", "statement": "A notification is posted at most four times, stops at the first success, waits 1,2,4,8 s after failures, is delivered iff one of the first four attempts succeeds, and is otherwise dropped without stopping the notifier.", "quantifier": "all outcome sequences of the HTTP layer", "why_tests_cant": "failure schedules", "anchors": ["src/handlers/status_notifier_handler.cpp: on_request"]}
{"id": "C36", "title": "Reactor routing", "statement": "A message emitted by a handler goes to the socket with its key if there is one, otherwise to exactly the handlers subscribed to that key; messages received from a socket go to handlers only; with the broker's wiring handling always terminates without re-entrancy and messages from the monitor socket have no effect.", "quantifier": "all messages and wirings", "why_tests_cant": "all wirings and messages", "anchors": ["src/reactor/reactor.cpp: send_message, process_message", "src/broker_connect.cpp"]}
{"id": "C37", "title": "Configuration loading", "statement": "Each configuration item present with the right shape takes effect, each omitted or wrongly shaped one keeps its default, a non-map document or an unconvertible scalar rejects the whole configuration, and items do not influence each other.", "quantifier": "all YAML documents", "why_tests_cant": "all documents", "anchors": ["src/config/broker_config.cpp"]}
{"id": "C38", "title": "Configuration is fully determined", "statement": "Every value read from a loaded configuration is determined by the document and the defaults.", "quantifier": "all YAML documents", "why_tests_cant": "uninitialised memory looks fine in tests", "anchors": ["src/config/notifier_config.h: port", "src/config/broker_config.cpp"]}
{"id": "C39", "title": "Worker descriptions are unambiguous", "statement": "The hexadecimal rendering of worker identities is injective, and gives exactly two lowercase hex digits per byte.", "quantifier": "all byte strings", "why_tests_cant": "all byte strings; sign extension of chars >= 0x80", "anchors": ["src/helpers/string_to_hex.cpp", "src/worker.cpp: get_description"]}
{"id": "C40", "title": "Log levels", "statement": "The log level ordering used by the broker is a total order consistent with verbosity, and each documented level name selects that level.", "quantifier": "all level names", "why_tests_cant": "all strings", "anchors": ["src/helpers/logger.cpp"]}
{"id": "C41", "title": "Progress forwarding", "statement": "A progress message from any worker is forwarded to the monitor with exactly its remaining frames and has no other effect.", "quantifier": "all messages in all states", "why_tests_cant": "all contents", "anchors": ["src/handlers/broker_handler.cpp: process_worker_progress"]}
{"id": "C42", "title": "Unknown commands are inert", "statement": "A message with an unknown command or from an unrelated origin emits nothing and changes nothing (apart from the heartbeat of a registered worker).", "quantifier": "all messages in all states", "why_tests_cant": "all strings", "anchors": ["src/reactor/command_holder.cpp", "src/handlers/broker_handler.cpp: on_request"]}
{"id": "C43", "title": "Statistics reply format", "statement": "The reply to get-runtime-stats is an even-length list of alternating distinct keys and decimal values that always contains the keys used by the munin plug-in; its is-frozen entry is 1 exactly if the last of the freeze and unfreeze commands handled so far was freeze; asking does not change the broker.", "quantifier": "all reachable states", "why_tests_cant": "all states", "anchors": ["src/handlers/broker_handler.cpp: process_client_get_runtime_stats", "install/munin-broker"]}
{"id": "C44", "title": "Queue managers honour the interface contract", "statement": "Registering a worker together with the request it is already processing returns no newly assigned request.", "quantifier": "all states, both managers", "why_tests_cant": "contract of the interface over all states", "anchors": ["src/queuing/queue_manager_interface.h: add_worker", "src/queuing/single_queue_manager.h: add_worker", "src/queuing/multi_queue_manager.cpp: add_worker"]}
{"id": "C45", "title": "No job is sent to an expired worker", "statement": "A timer tick that finds workers expired does not send any job to a worker expired in the same tick, and afterwards nothing but intro is sent to an identity with no registered worker.", "quantifier": "all histories", "why_tests_cant": "simultaneous expirations", "anchors": ["src/handlers/broker_handler.cpp: process_timer"]}
{"id": "C46", "title": "Expired workers are forgotten", "statement": "After a worker expires the broker keeps no bookkeeping for it.", "quantifier": "all histories", "why_tests_cant": "long histories", "anchors": ["src/handlers/broker_handler.cpp: worker_timers_"]}
{"id": "C47", "title": "Init message parsing", "statement": "An init message registers exactly one worker with the given identity, hwgroup, headers up to the first empty frame, and description and current_job taken from the last such items after it.", "quantifier": "all init messages", "why_tests_cant": "all frame lists", "anchors": ["src/handlers/broker_handler.cpp: process_worker_init"]}
{"id": "C48", "title": "Failure reports are always settled with the frontend", "statement": "When a worker reports an internal error, the failed job is afterwards either held by the broker again or a final FAILED notification for it was emitted in the same step; a reassignment triggered by a failure report never fails for lack of a capable worker.", "quantifier": "all reachable states", "why_tests_cant": "depends on invariants relating assignment and capabilities", "anchors": ["src/handlers/broker_handler.cpp: process_worker_done, reassign_request"]}
{"id": "C49", "title": "Elapsed time is transported faithfully", "statement": "The elapsed time the handler decodes from a timer message is the number the reactor measured, for every 64-bit value; the total reported never exceeds the real time passed on a monotone clock.", "quantifier": "all 64-bit values, all loop schedules", "why_tests_cant": "all values", "anchors": ["src/reactor/reactor.cpp: start_loop", "src/handlers/broker_handler.cpp: process_timer"]}
{"id": "C50", "title": "Queue manager selection", "statement": "The broker starts with the single-queue manager for 'single' or no setting, the multi-queue manager for 'multi', and refuses to start for any other value.", "quantifier": "all configurations", "why_tests_cant": "all strings", "anchors": ["src/broker_core.cpp: broker_init", "src/config/broker_config.h"]}
{"id": "C51", "title": "Main loop fairness", "statement": "Each loop iteration hands at most one received message per socket to the handlers, in a fixed socket order, and then exactly one timer message; every message received is handled exactly once and in the order it was received on that socket.", "quantifier": "all loop schedules", "why_tests_cant": "schedules", "anchors": ["src/reactor/reactor.cpp: start_loop"]}
{"id": "C52", "title": "Termination of processing", "statement": "A job set that is not added to is fully settled after boundedly many failure/finish reports: each handled report strictly decreases a measure bounded by (number of held jobs) * max(1, max_request_failures).", "quantifier": "all histories without new submissions", "why_tests_cant": "unbounded histories", "anchors": ["src/handlers/broker_handler.cpp: process_worker_done"]}
{"id": "C53", "title": "The start is recorded in the log", "statement": "Unless the configured log level is off, the log of a started broker contains a record of the start, whatever the level; at level off nothing is written.", "quantifier": "all log levels", "why_tests_cant": "depends on the interplay of two level orders", "anchors": ["src/broker_core.cpp: log_init", "src/helpers/logger.cpp"]}
{"id": "C54", "title": "A worker in progress was really given the job", "statement": "If the broker considers a registered worker busy with a job, then earlier it sent that worker the job's evaluation message (with the stored frames), or the worker introduced itself as processing it; and ever since then the worker stayed registered, was considered busy with that very job, and did not report about it.", "quantifier": "all histories, both queue managers", "why_tests_cant": "a job marked as assigned but never sent shows only as a job that never ends", "anchors": ["src/handlers/broker_handler.cpp: send_request, reassign_request", "src/queuing/*.cpp"]}
{"id": "C55", "title": "The monitor is told about failed and aborted jobs", "statement": "Besides forwarded progress messages the monitor is sent exactly: [job, FAILED] for an evaluation request rejected for want of a worker (not for one rejected because the broker is frozen); [job, FAILED] when an internal error makes the broker give an accepted job up; on a timer message only [job, FAILED] and [job, ABORTED], the former as often as the frontend is sent a final notification of the job, the latter at least as often as the job is sent to another worker; and the job an expired worker was processing is always announced in one of these ways.", "quantifier": "all histories", "why_tests_cant": "many paths (rejection, retries, expiry of several workers at once)", "anchors": ["src/handlers/broker_handler.cpp: notify_monitor and its callers"]}
{"id": "C56", "title": "A job is passed on while a capable worker remains", "statement": "If d workers are removed for inactivity in one timer message, a job that was not adopted and was sent at most max_request_failures - d times stays in the broker and no final notification about it is sent, provided that some remaining worker declared all that was asked for the job.", "quantifier": "all histories", "why_tests_cant": "depends on the number of earlier failures and on the set of remaining workers", "anchors": ["src/handlers/broker_handler.cpp: process_timer, reassign_request, check_failure_count"]}
{"id": "C57", "title": "No premature failure", "statement": "A job is reported failed only if its worker reported so (and then with the worker's text), or the broker knows the job only from a worker's announcement, or no registered worker is left that declared what was asked for, or its evaluation message was sent at least max_request_failures times.", "quantifier": "all histories", "why_tests_cant": "quantifies over all failure histories", "anchors": ["src/handlers/broker_handler.cpp: check_failure_count, process_timer, process_worker_done"]}
{"id": "C58", "title": "The configuration file governs the running broker", "statement": "A broker that starts binds the workers' and clients' sockets to the addresses and ports given in the file and connects the monitor's socket to the one given there (with the documented defaults), keeps the limit max_request_failures given there on the dispatches of each job, and uses the max_liveness and ping_interval given there.", "quantifier": "all documents, all histories", "why_tests_cant": "quantifies over documents and executions", "anchors": ["src/broker_connect.cpp", "src/broker_core.cpp", "src/config/broker_config.cpp"]}
{"id": "C59", "title": "Failure reports and reports that are not understood", "statement": "When the worker reports FAILED with a text for the job it is processing, the frontend is sent exactly one FAILED notification with that text, exactly that job leaves the broker, and the only other message is the next job for the same worker. A report with an unknown status, or a failure report without exactly one text, changes nothing but the heartbeat and sends nothing.", "quantifier": "all reachable states", "why_tests_cant": "all statuses and frame counts", "anchors": ["src/handlers/broker_handler.cpp: process_worker_done"]}
{"id": "C60", "title": "End-to-end accounting", "statement": "At every moment of every execution of the whole process (main thread, notifier thread, sockets), for every job id: the number of times such a job entered equals the jobs held, plus its final notifications waiting in the main thread, under way between the threads, handled by the notifier thread, and lost between the threads. If the notifier thread is connected and its pipe has room, nothing is lost, and every accepted job is held, on its way, or was the subject of at least one HTTP request to the frontend.", "quantifier": "all interleavings", "why_tests_cant": "interleavings of two threads", "anchors": ["src/reactor/reactor.cpp", "src/handlers/*.cpp", "src/notifier/reactor_status_notifier.cpp"]}
{"id": "C61", "title": "Heartbeats in real time", "statement": "On a monotone clock: (a) a registered worker whose message the broker handles stays registered at least until max_liveness times the ping interval has passed, in real time, since the moment the broker began the wait in which that message was picked up; (b) a broker that is busy and does not wait removes nobody; (c) a worker that sends nothing after a handled message is removed by the time the broker has spent waiting, in whole milliseconds per wait, more than the limit. Claimed but false: (a) counted from the handling of the message, and (c) in real time.", "quantifier": "all interleavings of arriving messages, waits and threads; all configurations with max_liveness >= 1", "why_tests_cant": "real time, unbounded schedules", "anchors": ["src/reactor/reactor.cpp:56-113", "src/handlers/broker_handler.cpp (process_timer)"]}
{"id": "C62", "title": "End of the process and return to waiting", "statement": "The broker process ends only because of a message that arrived at the clients' or workers' socket and is one of the listed malformed ones (never because of a timer message, of the notifier, or of the monitor). From every situation the main thread gets back to waiting for messages, or ends, within finitely many steps of its own.", "quantifier": "all interleavings", "why_tests_cant": "all interleavings and inputs", "anchors": ["src/reactor/reactor.cpp:56-113", "src/handlers/broker_handler.cpp"]}
{"id": "C63", "title": "Messages at the sockets are served", "statement": "Unless the process ends: after n complete rounds of the reactor loop the n oldest messages that waited at a socket have been handled, in the order of arrival and before any later one, whatever arrives at the same or other sockets meanwhile.", "quantifier": "all interleavings, all n", "why_tests_cant": "unbounded schedules", "anchors": ["src/reactor/reactor.cpp:56-113"]}
{"id": "C64", "title": "No starvation of waiting jobs", "statement": "Multi-queue manager: when a worker reports its job as completed or failed, the first job of its queue is sent to it at once; a job that waits behind n others is sent by the time its worker, staying registered, has reported n + 1 such jobs. Single-queue manager: while a job waits, completions and failures reported by workers able to do it number less than the jobs that had waited at least as long as it; jobs that arrive later do not delay it.", "quantifier": "all executions, all numbers of waiting jobs", "why_tests_cant": "unbounded queues and histories", "anchors": ["src/queuing/multi_queue_manager.cpp", "src/queuing/single_queue_manager.h", "src/handlers/broker_handler.cpp (process_worker_done)"]}
{"id": "C65", "title": "The timers of the workers do not overflow", "statement": "The broker adds the length of each wait to a signed 64-bit millisecond timer of every registered worker. On a clock that does not run backwards and gives its readings in 64-bit nanoseconds this addition never leaves the 64-bit range, whatever the configuration, the messages and the lengths of the waits; so its undefined behaviour on overflow is never reached.", "quantifier": "all executions of the process, all configurations, all clock readings", "why_tests_cant": "needs centuries of uptime or extreme clock readings", "anchors": ["src/handlers/broker_handler.cpp (process_timer)", "src/reactor/reactor.cpp (start_loop)"]}
{"id": "C66", "title": "What is said about jobs that are not evaluated", "statement": "A rejected evaluation request is told either that the broker is frozen (exactly when it is) or exactly the requirements it stated, ordered by name. With max_request_failures positive, the text in the notification of a failed job is the worker's own text; or the last error with the remark that the job cannot be reassigned, only for jobs announced by a worker; or the last error with the number of reassignments, which is max_request_failures - 1 and, for a job accepted once, one less than the number of its evaluation messages; or names a worker removed in this step. With max_request_failures = 0 the number can be 2^64 - 1.", "quantifier": "all executions, requests, texts and configurations", "why_tests_cant": "depends on whole histories of failures and on arbitrary strings", "anchors": ["src/handlers/broker_handler.cpp:86-175", "src/handlers/broker_handler.cpp:406-445", "src/handlers/broker_handler.cpp:489-503"]}
{"id": "C67", "title": "Job ids, client identities and job data are opaque", "statement": "Replace, in all messages of a history, job ids by others (different ones by different ones), identities of clients by arbitrary ones and the data frames of jobs by arbitrary ones. The broker then sends exactly the same messages in the same order with the same replacements, and it ends (exception, undefined behaviour) at the same messages. So no decision depends on who asks, on what a job id looks like or on what a job contains.", "quantifier": "all executions of both queue managers and all replacements", "why_tests_cant": "a relation between two executions, for all executions and all replacements", "anchors": ["src/handlers/broker_handler.cpp:86-175", "src/handlers/broker_handler.cpp:177-381", "src/handlers/broker_handler.cpp:461-515"]}
{"id": "C68", "title": "What the munin plug-in prints", "statement": "At every point of every history the broker answers the question of the plug-in install/munin-broker, and from the answer the plug-in, without an exception, prints three values: the number of success notifications sent, the number of failure reports handled (both modulo 2^64) and the number of jobs waiting right after the last timer message (0 before the first). Below 2^64 events the first two values never decrease between two questions, as the plug-in's type DERIVE requires, and differ by what happened in between.", "quantifier": "all executions, all questioners", "why_tests_cant": "the values depend on whole histories; two programs in two languages have to agree on a format", "anchors": ["install/munin-broker:28-40", "src/handlers/broker_handler.cpp:517-535"]}
{"id": "C69", "title": "Every held job can still be finished", "statement": "At every point of every history at which registered workers have distinct identities and no worker has been idle since it reported an internal error: as long as the broker holds a job some registered worker is processing one, and if registered workers report success once for each job held, the frontend is told exactly once for each of these jobs that it is done, nothing else, and the broker holds no job. With two registered workers of one identity this is false: every report may bring the broker down.", "quantifier": "all executions of both queue managers", "why_tests_cant": "existence of a continuation from every reachable state", "anchors": ["src/handlers/broker_handler.cpp:261-345", "src/queuing/multi_queue_manager.cpp:67-98", "src/queuing/single_queue_manager.h:90-110"]}
{"id": "C70", "title": "Where a job goes after an internal error", "statement": "A worker reports an internal error about the job it is processing, the job came from a client and may be tried again. Single-queue manager: the job is sent at once to a worker that declared all it asks for and is idle or the one that reported, nothing else is sent and the queue stays as it is. Multi-queue manager: the first worker of the ring that declared all the job asks for is chosen and moves to the end of the ring; if it is idle or the one that reported it is sent the job at once and nothing else is sent, otherwise the job joins the end of its queue, nothing is sent and the worker that reported is left idle.", "quantifier": "all executions, all reports of internal errors", "why_tests_cant": "depends on the state of all workers and queues", "anchors": ["src/handlers/broker_handler.cpp:303-326", "src/handlers/broker_handler.cpp:461-481", "src/queuing/multi_queue_manager.cpp:31-65", "src/queuing/single_queue_manager.h:25-36"]}
{"id": "C71", "title": "Memory layout cannot be observed", "statement": "Two brokers with the same configuration that are given the same messages emit the same messages and fail in the same way, whatever addresses their worker objects get; with the multi-queue manager also whatever times they read from the clock and however they sort. (Single-queue manager: true for ascending addresses, false in general, because the order of the addresses decides which of several idle workers gets a job.)", "quantifier": "all sequences of messages, all pairs of environments", "why_tests_cant": "a test runs with one allocator and one clock; the claim compares all of them", "anchors": ["src/queuing/multi_queue_manager.h:13-15", "src/queuing/single_queue_manager.h:25-36", "src/handlers/broker_handler.cpp:222-252"]}
{"id": "C72", "title": "Failures end the process with status 1", "statement": "If the broker cannot be started (bad parameter, unreadable or bad configuration file, no log, unknown queue manager, no sockets) or an exception leaves its main loop, the process ends with status 1 after a message on the standard error stream. (True for failures during the start. False for exceptions that leave the loop and for sockets that cannot be bound: always undefined behaviour.)", "quantifier": "all command lines, configuration files and surroundings; all executions of the process", "why_tests_cant": "unit tests construct the reactor without the asynchronous handler or end it in the orderly way; the destruction order of members only matters when an exception unwinds the stack of main", "anchors": ["src/main.cpp:10-18", "src/broker_core.cpp:5-83", "src/reactor/reactor.h:199-219", "src/reactor/reactor.cpp:159-167"]}
{"id": "C73", "title": "Orderly end of the process", "statement": "After reactor::terminate the process ends: the loop is left, every notification that was not lost on the way to the notifier thread has been taken care of, everything the handler emitted has been sent, the status is 0. The process does not end without a call of terminate. (That it ends is false if the notifier thread is not connected yet or its pipe is full when the loop is left: the process then waits forever.)", "quantifier": "all interleavings of both threads and the peers", "why_tests_cant": "the hang needs an interleaving in which the notifier thread is slower than the main thread, or a full pipe", "anchors": ["src/reactor/reactor.cpp:74-135", "src/reactor/reactor.cpp:159-212"]}
{"id": "C74", "title": "terminate is not lost", "statement": "After a call of reactor::terminate zmq::poll returns at most once more. (True for calls while the main thread is in the loop. False for earlier calls: start_loop resets the flag, and the call has no effect at all.)", "quantifier": "all executions of the process, all points at which terminate can be called", "why_tests_cant": "tests of the reactor call terminate after a delay, from another thread", "anchors": ["src/reactor/reactor.cpp:74-78", "src/reactor/reactor.cpp:132-135"]}
{"id": "C75", "title": "With one worker the choice of the queue manager makes no difference", "statement": "If at no time more than one worker is registered, nobody who talks to the broker can tell whether it uses the multi-queue or the single-queue manager: the same messages are emitted in the same order in response to the same messages, and failures are the same. (True if arrival times tell the order of arrival and no worker announces a job; with announced jobs true up to empty messages to workers.)", "quantifier": "all sequences of messages, configurations and environments", "why_tests_cant": "a comparison of two implementations over unbounded sequences of messages; each queue manager is tested on its own", "anchors": ["src/queuing/multi_queue_manager.cpp:3-116", "src/queuing/single_queue_manager.h:40-187", "src/handlers/broker_handler.cpp:64-555"]}
{"id": "C76", "title": "A worker that follows the protocol never brings the broker down and never disagrees with it", "statement": "Consider the broker and one worker that introduces itself when it starts and whenever it is asked to (naming the job it is processing), starts every job it is sent, reports every job once, and pings and reports progress at will; messages are delivered in order in each direction but delayed arbitrarily, and everybody else behaves arbitrarily. Then the broker handles every message of the worker normally; a report of the worker, if the broker knows it, is about the job the broker thinks the worker is processing; the worker is idle whenever it receives a job; when nothing is under way the broker and the worker agree about the job being processed; the worker is never registered twice. (True if the worker does not ping again before the last ping was answered.)", "quantifier": "all interleavings of the worker, the wire and the broker, all behaviours of other workers, clients and timer, both queue managers, all configurations", "why_tests_cant": "needs an exploration of all interleavings of an unbounded system of two communicating parties; the tests send the broker single messages", "anchors": ["src/handlers/broker_handler.cpp:177-259", "src/handlers/broker_handler.cpp:261-352", "src/handlers/broker_handler.cpp:354-368", "src/handlers/broker_handler.cpp:383-445"]}
{"id": "C77", "title": "Notifications carry the configured credentials", "statement": "Requests to the frontend carry credentials if and only if a user name or a password is configured, and then exactly the configured user name and password. (True if the user name contains no colon and neither contains a NUL.)", "quantifier": "all configurations, notifications and outcomes of the HTTP layer", "why_tests_cant": "all strings; the notifier is not tested against a server with credentials", "anchors": ["src/helpers/curl.cpp:137-140", "src/handlers/status_notifier_handler.cpp:55-65"]}
{"id": "C78", "title": "Deployments come to rest with every job reported", "statement": "Consider the broker and any number of workers that follow the protocol. If nothing new happens (no client message, no timer, no new worker, ping or progress report), then in whatever order messages arrive and jobs finish, after a bounded number of steps nothing is under way and no worker has a job; until then there is always something to do and the broker handles every message normally. When this state is reached the frontend has been told the result of every accepted job. (True if no worker reports internal errors.)", "quantifier": "all deployments, all histories, all orders of events, all results of jobs, both queue managers", "why_tests_cant": "termination and progress of all interleavings of a distributed system", "anchors": ["src/handlers/broker_handler.cpp:177-371", "src/queuing/multi_queue_manager.cpp:1-116", "src/queuing/single_queue_manager.h:60-189"]}
{"id": "C79", "title": "How jobs are spread over the workers", "statement": "Multi-queue manager: an accepted job is given to exactly one registered worker, which declared all it asks for; while no worker registers or is removed, the numbers of jobs given to any two workers of a group differ by at most one, if every job asked for is one for all workers of the group or for none, however fast or slow the workers are. Single-queue manager: an accepted job is sent at once if an idle worker declared all it asks for, otherwise it waits at the end of the queue. (The even distribution is false if workers report internal errors; with the multi-queue manager a job may wait although an idle worker could do it.)", "quantifier": "all histories, all periods, all groups of workers, all headers", "why_tests_cant": "relates numbers accumulated over arbitrarily long periods under arbitrary interleavings", "anchors": ["src/queuing/multi_queue_manager.cpp:31-63", "src/queuing/single_queue_manager.h:136-164", "src/handlers/broker_handler.cpp:86-153"]}
{"id": "C80", "title": "Logging has no influence", "statement": "Whatever the log level, a handled message has the same effect on the broker and sends the same messages; the log at a level is the log at the lowest level without the entries of lower levels, in the same order; with level off nothing is written.", "quantifier": "all messages, all states, all histories, all log levels, both queue managers", "why_tests_cant": "two executions that differ in the configuration are compared after every message", "anchors": ["src/handlers/broker_handler.cpp:86-555", "src/helpers/logger.cpp:1-49"]}
{"id": "C81", "title": "The log is a faithful record", "statement": "At level debug the entries about jobs sent to workers name, one by one and in order, the job and the worker of the evaluation messages sent. At level err the entries about rejected requests are, one by one and in order, the rejections sent to clients. At level info the entries about expired workers written while a message is handled name exactly the workers that are no longer registered afterwards, and the broker is frozen iff the last entry about freezing says so. (False for the single-queue manager when a worker registers with a job: the log then says the job was sent, but the message is empty. The log does not tell whether a job succeeded or failed.)", "quantifier": "all histories, all log levels up to the one named", "why_tests_cant": "relates two outputs over whole histories", "anchors": ["src/handlers/broker_handler.cpp:86-555"]}
{"id": "C82", "title": "Lines of the log file", "statement": "Each line of the log file is one entry; a character that is not printable ASCII can get into the log only from a frame of a message. (False as stated: a client or worker can put a line feed into a frame, and so write lines of their own into the log, even ones that read like entries of the broker.)", "quantifier": "all histories, all log levels, all frames", "why_tests_cant": "about all contents of frames and everything kept in queues and workers", "anchors": ["src/handlers/broker_handler.cpp:86-555", "src/helpers/string_to_hex.cpp:1-11"]}
{"id": "C83", "title": "The registry of workers", "statement": "After any calls of add_worker (with different objects) and remove_worker, get_workers lists the workers added and not removed since, in the order in which they were added. find_worker_by_identity returns the first of them with the identity, find_worker the first of them that satisfies all headers of a request; both return a null pointer if there is none.", "quantifier": "all sequences of calls, all declared and requested headers (thread counts being numbers)", "why_tests_cant": "all sequences of calls and all header values", "anchors": ["src/worker_registry.cpp:6-45"]}
{"id": "C84", "title": "Conversations with clients", "statement": "At every moment of every execution of the process, what was sent on the socket to a client (together with what the main thread is about to send to it) is the sequence of the replies to this client's requests in the order the client sent them: ack and accept or reject for an eval, ack alone for an eval without delimiter, the statistics for get-runtime-stats, ack for freeze and unfreeze, nothing for anything else; nothing else is sent to the client and no other client, worker or timer comes in between. When the broker waits and nothing of the client is left in the socket, everything it sent was answered. The number of replies depends on the request only, so the client can tell which reply belongs to which request.", "quantifier": "all executions of the process that have not ended, all clients, both queue managers", "why_tests_cant": "about all interleavings of clients, workers, timer and notifier thread", "anchors": ["src/handlers/broker_handler.cpp:23-175", "src/handlers/broker_handler.cpp:517-555", "src/reactor/reactor.cpp:28-150", "src/reactor/router_socket_wrapper.cpp:1-54"]}
{"id": "C85", "title": "The single-queue manager serves in order of arrival", "statement": "As long as the arrival times tell the order of arrival (every reading of the wall clock is later than the ones before, or no reading is earlier than the ones before and std::sort leaves sorted lists alone), a broker with the single-queue manager cannot be told apart from a broker that keeps the waiting requests in a plain list in order of arrival: for every sequence of incoming messages it sends the same messages and fails in the same way. Hence neither the readings themselves nor the behaviour of std::sort can be seen. If two requests come in the same millisecond, or the clock is set back, a later request can be served first.", "quantifier": "all sequences of messages, all configurations, all such clocks and behaviours of std::sort, all behaviours of the allocator", "why_tests_cant": "about all clocks, sorting algorithms and message sequences; tests run with one of each", "anchors": ["src/queuing/single_queue_manager.h:12-46", "src/queuing/single_queue_manager.h:78-164", "src/broker_core.cpp:130-140"]}
{"id": "C86", "title": "Rejected requests and queries leave no trace", "statement": "A message of a client that is a query for statistics, an unknown or malformed command, or an eval request that is rejected (no worker, or the broker is frozen) does not influence anything later: whatever comes next, the broker sends the same messages to everybody and fails in the same way as if the message had never come. Taking all such messages out of a history leaves what the broker sends for each of the other messages unchanged.", "quantifier": "all histories, all continuations, both queue managers (single-queue manager: clocks as in C85)", "why_tests_cant": "a relation between all pairs of executions with and without the messages", "anchors": ["src/handlers/broker_handler.cpp:86-175", "src/handlers/broker_handler.cpp:517-535", "src/queuing/single_queue_manager.h:136-164", "src/queuing/multi_queue_manager.cpp:31-61"]}
{"id": "C87", "title": "The multi-queue manager is a rota with one line of promises", "statement": "The multi-queue manager, with its map of queues ordered by the addresses of worker objects, answers every sequence of calls exactly like this: the workers take turns in a list (new workers at the front); a request is promised to the first worker in the list that can process it, and that worker goes to the end of the list; if the worker is free it starts at once, otherwise the request goes to the end of one common line; a worker that is done takes the first request in the line that was promised to it; a worker that goes away gives back what it does and what was promised to it. Hence a broker with the multi-queue manager cannot be told apart from a broker with this specification.", "quantifier": "all sequences of calls with all workers and requests; all sequences of messages, all configurations, clocks and allocators", "why_tests_cant": "equality of two programs on all inputs", "anchors": ["src/queuing/multi_queue_manager.cpp:3-116", "src/queuing/multi_queue_manager.h:10-30"]}
{"id": "C88", "title": "Queue managers are interchangeable", "statement": "The broker depends on its queue manager only through the answers of the interface's functions: if two implementations of queue_manager_interface, starting empty, give the same answers (or throw the same exception) to every sequence of calls, then brokers with them send the same messages and fail in the same way for every sequence of incoming messages.", "quantifier": "all pairs of implementations, all sequences of messages, all configurations and allocators", "why_tests_cant": "quantifies over all implementations of an interface", "anchors": ["src/queuing/queue_manager_interface.h:1-92", "src/handlers/broker_handler.cpp:64-515"]}
{"id": "C89", "title": "Any comparator and any selector in the single-queue manager", "statement": "single_queue_manager is a template with a comparator of jobs and a selector of workers. Let the comparator be such that sorting works (the result is a permutation in which no later job comes before an earlier one), and let the selector return only workers that are idle and can process the request, and throw only what the comparison of headers throws for some worker. Then every job is accounted for (C01), evaluation messages go to capable workers, one at a time and at most max_request_failures times per job (C03, C04, C06), and a worker that asks for work gets a waiting job such that no other waiting job it declared for comes before it in the comparator's order. If the selector also finds a worker whenever a suitable one is idle, then a worker is idle beside a job it could do only after it reported an internal error, and every job can be finished. With the default arguments the template is the single-queue manager of the other properties. A selector that may return a busy worker loses jobs.", "quantifier": "all comparators and selectors that meet the contract, all histories, configurations, clocks and allocators", "why_tests_cant": "quantifies over all instances of a template", "anchors": ["src/queuing/single_queue_manager.h:17-187"]}
{"id": "C90", "title": "The reactor with any sockets and any handlers", "statement": "For all registrations, all handlers (direct and asynchronous, with any state and any responses) and all interleavings of the threads: messages that arrive at a socket are processed once each and in order; what handlers pass to the response callback is sent once and in order on the socket with the name of its key, or else processed; every handler is called with every processed message as often as it is registered for the key; asynchronous handlers get exactly the messages passed to them and not dropped, in order, never those of another handler, and their responses come back in order, provided that all messages have at least one frame and none has the key TERMINATE. If the direct handlers are in layers (each answers only to sockets, asynchronous handlers and lower layers), no handler is entered while it runs, and the main thread always returns to its loop. Without these provisos the claims are false: a message without frames swallows the next message for another handler, and a handler that answers itself never returns.", "quantifier": "all registrations, handlers, states, messages and interleavings; infinite executions", "why_tests_cant": "quantifies over all handlers and schedules", "anchors": ["src/reactor/reactor.cpp:14-222", "src/reactor/reactor.h:20-140", "src/reactor/handler_interface.h:10-28"]}
{"id": "C91", "title": "Answers sent in the middle of a call make no difference", "statement": "The broker handler passes its answers and notifications to the reactor in the middle of handling a message, and the reactor sends them at once. For every program of the handler with the same result (same answers in the same order, same end, same final state), no matter at which points it passes the messages on, every execution is the same, as far as the sockets, the notifier thread and the state between two messages are concerned, as an execution in which the answers are sent after the handler has returned; and conversely. The handler is never entered while it is handling a message.", "quantifier": "all handler programs with the given result, all queue managers, all interleavings of the reactor, the notifier thread and the network", "why_tests_cant": "relates two ways of executing all programs under all schedules", "anchors": ["src/reactor/reactor.cpp:37-145", "src/broker_connect.cpp:13-42", "src/handlers/broker_handler.cpp:94-152"]}
{"id": "C92", "title": "Groups of workers do not disturb each other", "statement": "Divide the workers and the evaluation requests into two groups so that no worker can process a request of the other group (for example by hardware group). Then the broker does the same for one group whether the other group is there or not: whenever it handles all messages without failing, it would also handle the messages of our group alone without failing, would answer each of them with exactly the same messages, and would do the same when the timer fires except for what concerns the other group. Each worker of our group receives the same messages in the same order, and the frontend is told the same about the results of our jobs. With the multi-queue manager this holds whatever the addresses of objects, the clock and the sorting algorithm; with the single-queue manager the clock must tell the order of arrival and addresses must grow.", "quantifier": "all divisions, all sequences of messages, all configurations and environments, both queue managers", "why_tests_cant": "relates two executions on all inputs and all divisions", "anchors": ["src/queuing/multi_queue_manager.cpp:31-160", "src/queuing/single_queue_manager.h:60-230", "src/handlers/broker_handler.cpp:94-560"]}
{"id": "C93", "title": "Failed receives are not taken for messages", "statement": "When a recv call fails while a message is being read from a socket, the broker is not called with anything that did not arrive as a message: every message handed to the handlers is, with its sender and all its frames, one that arrived at that socket.", "quantifier": "all executions, all points of failure, all sockets, both queue managers", "why_tests_cant": "needs failures of the library at every possible point of every message, in all interleavings", "anchors": ["src/reactor/router_socket_wrapper.cpp:30-54", "src/reactor/reactor.cpp:85-95"]}
{"id": "C94", "title": "Failed sends do not affect other messages", "statement": "When a send call fails, the message concerned may be lost, but all other messages on that socket go to the peer they are for, intact and in order, and the broker is not affected otherwise.", "quantifier": "all executions, all points of failure, all sockets, both queue managers", "why_tests_cant": "needs failures of the library at every possible point of every message, in all interleavings", "anchors": ["src/reactor/router_socket_wrapper.cpp:9-28", "src/reactor/reactor.cpp:37-47"]}
{"id": "C95", "title": "Interrupted waits", "statement": "When a wait for messages fails (zmq::poll in the main loop, recv in the notifier thread), for example because a signal arrived, the broker goes on.", "quantifier": "all executions of the process, both threads, both queue managers", "why_tests_cant": "needs failures of the library at every possible time, and depends on the order of destruction of members", "anchors": ["src/reactor/reactor.cpp:77-82", "src/reactor/reactor.cpp:180-212", "src/main.cpp:8-18"]}
{"id": "C96", "title": "Identities of workers are opaque", "statement": "Let every worker have another identity, different workers different ones. Then the broker sends the same messages in the same order: those to workers go to the new identities, the name of the worker in the text of a complaint about a second init and in the text of a notification about a job lost with its worker is the new one, everything else is the same. It fails on the same messages.", "quantifier": "all histories, all injective replacements of identities, all allocators, clocks and sorting algorithms, both queue managers", "why_tests_cant": "relates pairs of executions for all possible identities, including those with special characters or digits that a comparison or an ordering might treat differently", "anchors": ["src/worker_registry.cpp:31-40", "src/handlers/broker_handler.cpp:64-84", "src/handlers/broker_handler.cpp:177-259", "src/worker.cpp:134-141"]}
{"id": "C97", "title": "What the broker keeps is bounded by its present workers and jobs", "statement": "The number of entries in all containers of the handler, the worker registry and the queue manager is at most a constant times the number of registered workers and waiting jobs (plus one), whatever happened before.", "quantifier": "all histories, all allocators, clocks and sorting algorithms, both queue managers", "why_tests_cant": "a leak of one entry per event shows only after very long executions; the statement is about all of them, and the exact count about every container at once", "anchors": ["src/handlers/broker_handler.cpp:60-75", "src/handlers/broker_handler.cpp:245-256", "src/handlers/broker_handler.cpp:380-440", "src/queuing/multi_queue_manager.cpp:3-60", "src/queuing/single_queue_manager.h:60-160"]}
{"id": "C98", "title": "If the broker stops, the log says so", "statement": "Unless the logger is off, when the process ends, or does not start after its logger was created, the log has an entry of level critical that says so; and no other event of the main thread leaves such an entry.", "quantifier": "all executions of the process, all log levels, all schedules of the two threads, both queue managers", "why_tests_cant": "the absence of an entry has to be shown for every way the process can end, and its uniqueness for every other event", "anchors": ["src/broker_core.cpp:26-31", "src/broker_core.cpp:72-83", "src/broker_core.cpp:125-161", "src/broker_connect.cpp:44-48", "src/main.cpp:8-19"]}
{"id": "C99", "title": "A notification that is not delivered leaves entries in the log", "statement": "Every failed HTTP request of the notifier leaves one critical entry with the address, the parameters and the error, and nothing else does; a notification the notifier thread has taken is either delivered or reported four times in a row.", "quantifier": "all executions of the process, all results of libcurl, all log levels but off", "why_tests_cant": "results of libcurl such as a missing handle cannot be provoked in a test, and the correspondence is between two unbounded sequences", "anchors": ["src/handlers/status_notifier_handler.cpp:53-65", "src/helpers/curl.cpp:100-160"]}
{"id": "C100", "title": "Credentials of the web interface appear only in HTTP requests", "statement": "Two executions that differ only in the user name and password of the notifier write the same log, send the same messages to all peers and end in the same way; their HTTP requests differ only in the credentials.", "quantifier": "all executions of the process, all credentials, all log levels", "why_tests_cant": "it compares pairs of executions and quantifies over all credentials; searching a log for a password finds only literal copies", "anchors": ["src/handlers/status_notifier_handler.cpp:10-66", "src/helpers/curl.cpp:100-160", "src/broker_core.cpp:101-153"]}
{"id": "C101", "title": "The log of the process contains the log of its handler, and has no influence", "statement": "The entries of the broker handler in the log of the process are, in order, those it writes for the messages it was called with, up to and including a message that makes it fail; the process does the same at every log level.", "quantifier": "all executions of the process, all log levels, both queue managers", "why_tests_cant": "relates all executions of the concurrent process with all histories of the handler", "anchors": ["src/reactor/reactor.cpp:58-135", "src/handlers/broker_handler.cpp:18-75", "src/broker_core.cpp:26-31"]}
{"id": "C102", "title": "A failing call on the in-process socket", "statement": "Whichever call of ZeroMQ fails, and whenever, the broker goes on serving, or, if it is terminating, returns from main.", "quantifier": "all executions of the process with failures of any ZeroMQ call at any time, both threads, both queue managers", "why_tests_cant": "the failures cannot be provoked at every point of every execution, and after one of them the behaviour is undefined", "anchors": ["src/reactor/reactor.cpp:153-212", "src/reactor/reactor.cpp:49-56", "src/reactor/reactor.cpp:77-130", "src/reactor/router_socket_wrapper.cpp:9-54", "src/main.cpp:7-19"]}
{"id": "C103", "title": "The job of a worker that started anew is taken back", "statement": "If a worker that the broker believes to be processing a job introduces itself again without naming a job, then after a bounded time the broker no longer believes so: the job was passed on, queued or reported.", "quantifier": "all histories, configurations, times, both queue managers", "why_tests_cant": "needs executions of unbounded length, and a worker that loses its job without being silent", "anchors": ["src/handlers/broker_handler.cpp:208-219 (process_worker_init)", "src/handlers/broker_handler.cpp: process_timer, process_worker_ping"]}
{"id": "C104", "title": "Workers that follow the protocol survive restarts of the broker", "statement": "Let workers follow the protocol and keep running while the broker process is started anew any number of times, at any moment, with messages under way, some of which may get lost. No broker process is brought down by them, every worker is idle when it receives a job, broker and worker agree about the worker's job whenever nothing is under way, and every accepted job a worker finishes is reported to the frontend.", "quantifier": "all executions of any number of broker processes, all moments of restart, all losses of messages, all configurations, both queue managers", "why_tests_cant": "needs all interleavings of several broker processes with messages that were under way when one of them ended", "anchors": ["src/handlers/broker_handler.cpp: process_worker_init, process_worker_ping (intro), process_worker_done", "src/broker_core.cpp"]}
{"id": "C105", "title": "Clients do not influence what other clients are told", "statement": "Let two histories agree, in order, about the requests of a client (other than queries for statistics), the messages of the timer, the introductions of workers, the moments at which each worker was heard of, and the moments at which other clients froze or unfroze the broker. They may differ in everything other clients want evaluated, in what workers say about jobs, and in the queue manager. Then the client is told exactly the same, statistics apart, the same workers are registered, and the next request of any client is answered in the same way.", "quantifier": "all pairs of histories, all configurations, both queue managers", "why_tests_cant": "relates two arbitrary executions (a hyperproperty)", "anchors": ["src/handlers/broker_handler.cpp: process_client_eval, process_client_freeze, process_client_unfreeze", "src/worker_registry.cpp", "src/queuing"]}
{"id": "C106", "title": "What the broker sends is bounded by what it received", "statement": "In every execution the numbers of messages sent are bounded by the numbers of messages received, whatever the timer does: clients are sent at most one message per message of a client and one more per request for an evaluation; workers at most max(1, max_request_failures) messages per request for an evaluation, one per introduction and one per ping; the frontend at most one notification per request for an evaluation and two per introduction of a worker; the monitor at most one message per request for an evaluation, report and progress message, and per introduction of a worker at most as many as there were requests for evaluations and introductions. Nothing is sent anywhere else. For the monitor no bound like the other ones holds with the multi-queue manager: waiting jobs that are moved from one silent worker to the next are reported each time.", "quantifier": "all histories, all configurations, both queue managers", "why_tests_cant": "an amortised bound over executions of any length", "anchors": ["src/handlers/broker_handler.cpp: process_client_eval, process_worker_init, process_worker_done, process_worker_ping, process_worker_progress, process_timer, reassign_request", "src/notifier/reactor_status_notifier.cpp"]}
{"id": "C107", "title": "The life of a job", "statement": "A job that is in the broker at most once at a time is at every moment at exactly one place: away, waiting, or with one worker. It enters by an accepted request (then it is given to a worker or waits) or with a worker that introduces itself while processing it; it goes from waiting to a worker when that worker introduces itself or reports; it leaves its worker when that worker reports about it (success: the frontend is told so; failure: the frontend is told the worker's text; internal error: it is given to a worker, waits, or the frontend is told that it failed) or when time passes and a worker falls silent (again given, waiting or failed, possibly several times when several workers fall silent). What the broker says about the job is exactly what belongs to these moves. So for a job that entered once the messages about it are: given to workers one after the other, then at most one final notification, then nothing. Without the assumption this fails: a job accepted twice may be with two workers at once.", "quantifier": "all histories, all configurations, both queue managers", "why_tests_cant": "a refinement to an automaton for every job over all interleavings with other jobs, workers, failures and timeouts", "anchors": ["src/handlers/broker_handler.cpp: process_client_eval, process_worker_init, process_worker_done, process_timer, reassign_request", "src/queuing/multi_queue_manager.cpp", "src/queuing/single_queue_manager.h"]}
{"id": "C108", "title": "Exactly which messages bring the broker down, and how", "statement": "A message ends the broker (with a determined exception or undefined behaviour) if and only if it is: without frames, from a worker or client (out_of_range); an init whose first threads header that is not a number below 2^64 is no number (invalid_argument) or too large (out_of_range); a done with at least two arguments from a known worker that processes nothing (null dereference); an eval alone (out_of_range) or with a job id only (read past the end); a complete eval while the broker is not frozen such that some registered worker declares threads, satisfies all headers with a name before threads in the alphabet and all threads headers before the first one that is not a number (the exception of that number); a timer message without frame (read past the end) or whose frame is no number of 64 bits (the exception of the conversion). While such a message is handled nothing is sent, except that an eval is acknowledged and an init under a known identity is reported to the frontend.", "quantifier": "all reachable states, all messages, both queue managers", "why_tests_cant": "an equivalence over all messages and all reachable states: tests show single crashes, not that there are no others", "anchors": ["src/handlers/broker_handler.cpp:63-84 on_request", "src/handlers/broker_handler.cpp:86-175 process_client_eval", "src/handlers/broker_handler.cpp:177-259 process_worker_init", "src/handlers/broker_handler.cpp:261-352 process_worker_done", "src/worker.cpp:74,92,113-152", "src/handlers/broker_handler.cpp:383-459 process_timer"]}
{"id": "C109", "title": "What the log contains, entry by entry", "statement": "At every log level the entries in the log, other than those about the dispatch of jobs, are, message by message and in order, exactly those called for by the messages: the receipt of an eval, init or done; why a request was refused (no end, frozen, headers followed by each header sorted by name) or that it was saved because the worker is busy; the description and frames of a worker exactly when it is new; an unknown worker, too few arguments, another job than the one in progress (with both ids), a wrong number of arguments, an unknown status; that a worker is free exactly when nothing is left for it; a worker that expired; freeze, unfreeze and statistics. A logger of level info or above writes nothing else. If a message ends the broker, only the receipt of the message (and of the job) is in the log.", "quantifier": "all histories, all messages, all log levels, both queue managers", "why_tests_cant": "an equation between the log and the whole history for all histories; tests compare single entries", "anchors": ["src/handlers/broker_handler.cpp:86-175 process_client_eval", "src/handlers/broker_handler.cpp:177-259 process_worker_init", "src/handlers/broker_handler.cpp:261-352 process_worker_done", "src/handlers/broker_handler.cpp:383-459 process_timer"]}
{"id": "C110", "title": "The attempts told in the log add up", "statement": "With a logger of level debug or below: (1) if a job entered the broker only once (accepted from a client, or named by a worker that registered), the failure count in every entry about reassigning it equals the number of times the log has told before that the job was sent to a worker; (2) each entry about reassigning a job is directly followed by the entry telling how that ended - sent to a worker, waiting, or not enqueued - for the same job, and its count is below max_request_failures; (3) that a job waits again or could not be enqueued is told nowhere else. For an identifier that entered twice (1) is false: the number is that of the request at hand.", "quantifier": "all histories of messages from the start, all handler configurations and environments, both queue managers, levels trace and debug", "why_tests_cant": "The claim ties a number kept in the request, bumped in three places, to the entries written so far over any sequence of failures, expiries, queueings and takeovers; tests look at one or two attempts.", "anchors": ["src/handlers/broker_handler.cpp:304-326", "src/handlers/broker_handler.cpp:404-440", "src/handlers/broker_handler.cpp:461-487"]}
{"id": "C111", "title": "A broker without workers is as good as new", "statement": "Whenever no worker is registered, nothing is left of the history but the runtime statistics and whether the broker is frozen: whatever messages come next, the broker sends the same messages and fails in the same way as a broker that was just started with these statistics. If it is not frozen and nobody asks for statistics, it cannot be told apart from a new one. In particular the timers that are kept for expired workers, identities that were used before, failure counts and requests of the past have no effect. With the single-queue manager this needs worker objects whose addresses grow and arrival times that tell the order of arrival.", "quantifier": "all histories after which no worker is registered, all sequences of messages after them, all handler configurations, all environments (multi-queue manager; single-queue manager: growing addresses, times in order), also between two different environments", "why_tests_cant": "It compares two infinite families of executions: every continuation after every history with the same continuation of a new broker. A leftover in any of the maps could show up only in a combination of a rare history with a rare continuation.", "anchors": ["src/handlers/broker_handler.cpp:382-450", "src/worker_registry.cpp:11-18", "src/queuing/multi_queue_manager.cpp:11-29", "src/queuing/single_queue_manager.h:111-134", "src/handlers/broker_handler.h:60"]}
{"id": "C112", "title": "When a worker gives a sign of life between two ticks cannot be observed", "statement": "A ping, a progress report or an unknown command of a worker can be exchanged with any other message that is neither a tick of the timer nor the registration of that worker: both are answered as before and everything afterwards is the same, also if the other message makes the broker fail. So it can be moved anywhere between two ticks. If the worker was registered and has sent any message since the last tick, further signs of life have no effect at all but their answers. Over a tick they may not be moved.", "quantifier": "all histories, all signs of life, all lists of messages between, all continuations, all handler configurations and environments, both queue managers", "why_tests_cant": "The claim is that a reordering has no effect on any continuation: an equality of two infinite families of executions from every reachable state.", "anchors": ["src/handlers/broker_handler.cpp:64-84", "src/handlers/broker_handler.cpp:354-381", "src/handlers/broker_handler.cpp:388-403", "src/handlers/broker_handler.cpp:252"]}
{"id": "C113", "title": "How finely time is told cannot be observed", "statement": "Time told to the broker by a tick of the timer can be told by the next tick instead, if the first one takes no worker beyond the ping interval and between them there is nothing but messages of clients other than the query for statistics: the first tick is answered with nothing and every other message, now and later, is answered exactly as before. So any number of such ticks, mixed with orders of clients, can be left out if the next tick tells the sum, and exactly the same is sent in the same order. A tick that takes a worker beyond the interval, a message of a worker between the ticks, and a query for statistics between the ticks each make a difference.", "quantifier": "all histories, all ticks and amounts of time (also negative), all lists of messages between, all continuations, all handler configurations and environments, both queue managers", "why_tests_cant": "The claim equates the whole futures of two ways to tell time, for every reachable state; a test compares two executions.", "anchors": ["src/handlers/broker_handler.cpp:383-403", "src/handlers/broker_handler.cpp:447-463", "src/reactor/reactor.cpp:78-84", "src/reactor/reactor.cpp:119-127"]}
{"id": "C114", "title": "Only the order of the readings of the clock matters", "statement": "A broker with the single-queue manager answers the same messages with the same messages for any two wall clocks that put each pair of readings in the same order, however wrong, fast or jumping they are, if no two readings are equal; then the sorting algorithm makes no difference either. If readings can be equal, this holds for the same sorting algorithm, provided that it does nothing with the times but compare them. With the multi-queue manager the clock has no influence at all. If the order of readings differs, or if readings are equal and the sorting algorithm differs, the difference can be observed.", "quantifier": "all message sequences, all pairs of clocks, all sorting algorithms, all allocators and handler configurations", "why_tests_cant": "The claim compares executions under all possible clocks; a test runs under one.", "anchors": ["src/queuing/single_queue_manager.h:12-23", "src/queuing/single_queue_manager.h:90-109", "src/queuing/single_queue_manager.h:136-164"]}
{"id": "C115", "title": "With one queue the monitor is told in proportion to what arrived", "statement": "A broker with the single-queue manager has, at any time, sent the monitor at most one message for each request for an evaluation, each progress message and each introduction of a worker it received; reports of workers, pings and the timer add nothing, however often workers fall silent. More precisely, one such message is still unsent for every registered worker and every waiting job. A timer event tells the monitor of at most one aborted job for each worker it removes. This holds for every lawful comparator and selector of the single-queue manager. With the multi-queue manager, where waiting jobs move from worker to worker, both bounds fail.", "quantifier": "all executions, handler configurations and environments; all lawful comparators and selectors", "why_tests_cant": "The bound has to hold after every sequence of messages, in particular after long chains of workers that fall silent one after the other.", "anchors": ["src/handlers/broker_handler.cpp:382-446", "src/queuing/single_queue_manager.h:111-134", "src/queuing/multi_queue_manager.cpp:11-30"]}
{"id": "C116", "title": "A frozen broker is one nobody asks for anything", "statement": "Freezing the broker and unfreezing it later has the effect of removing all messages of clients in between: workers, frontend and monitor are told the same messages in the same order as if these messages, the freeze and the unfreeze had never been sent, the process ends in the same way or not at all, and from the unfreeze on everybody, clients included, is told the same in reply to the same messages. While frozen, a message of a client changes nothing and is answered to its sender only, never with an acceptance. Excluded are messages of clients that end the process even while it is frozen: a message without frames and a request that breaks off before its headers.", "quantifier": "all states that are not frozen, all messages before, during and after the pause, all environments, configurations and queue managers", "why_tests_cant": "The claim compares two executions for all message sequences, states and lengths of the pause.", "anchors": ["src/handlers/broker_handler.cpp:86-175", "src/handlers/broker_handler.cpp:517-555"]}
{"id": "C117", "title": "The limits are observed only when they are reached", "statement": "The maximum liveness, the ping interval and the number of failures a job is allowed make no difference as long as none of them is reached: two brokers with any values of the three that handle the same messages without removing a worker from the registry, and without telling the frontend that a job was reassigned too many times, tell everybody the same messages in the same order and end in the same way or not at all. Moreover, if a broker with a maximum liveness of at least one reaches no limit then a broker with higher limits does not either, whatever times the timer reports, forwards or backwards.", "quantifier": "all pairs of configurations, all message sequences, all environments, both queue managers", "why_tests_cant": "The claim compares executions under all pairs of configurations for all message sequences; the counters and timers of the two brokers take different values all the time.", "anchors": ["src/handlers/broker_handler.cpp:64-84", "src/handlers/broker_handler.cpp:383-459", "src/handlers/broker_handler.cpp:461-515"]}
{"id": "C118", "title": "Time is observed only through removals", "statement": "Whatever times the timer reports and whatever the ping interval and the maximum liveness are: two brokers that are sent the same messages apart from the times in ticks, that allow a job the same number of failures, and that have the same workers registered after every message, send the same messages to everybody in the same order and end in the same way or not at all. If the times change who is removed, or if the numbers of failures differ, the difference can be observed.", "quantifier": "all pairs of configurations, all pairs of message sequences that differ in times only, all environments, both queue managers", "why_tests_cant": "The claim compares all pairs of executions whose counters and timers need not have anything in common; a test compares two.", "anchors": ["src/handlers/broker_handler.cpp:64-84", "src/handlers/broker_handler.cpp:383-459"]}
{"id": "C119", "title": "The broker has no unit of time of its own", "statement": "If the ping interval and every time reported by the timer are multiplied by the same positive factor, then every message is answered as before, and the broker ends in the same way or not at all. If only the times are multiplied, the difference can be observed.", "quantifier": "all positive factors, all configurations, all message sequences, all environments, both queue managers", "why_tests_cant": "The claim equates executions for every factor and every message sequence; a test checks one factor on one sequence.", "anchors": ["src/handlers/broker_handler.cpp:64-84", "src/handlers/broker_handler.cpp:383-403"]}
{"id": "C120", "title": "With the multi-queue manager the order of results does not matter", "statement": "With the multi-queue manager the final results (OK or FAILED) that different workers report one after the other are each answered exactly as if it were the only one, whatever their order; each worker gets the same next job, and everything that happens afterwards is the same. This includes results that are not understood, that concern another job, or that come from workers nobody knows. With the single-queue manager the order decides which worker gets which job, and a job that ended with an internal error makes a difference to the worker it is passed on to.", "quantifier": "all histories, all lists of final results of different workers that do not bring the broker down, all permutations, all continuations, all configurations and environments", "why_tests_cant": "The claim covers every order of any number of results in every reachable state, and all continuations.", "anchors": ["src/handlers/broker_handler.cpp:261-352", "src/queuing/multi_queue_manager.cpp:67-105"]}
{"id": "C121", "title": "Requirements matter only through the workers that meet them", "statement": "Replace, in any history, the header frames of requests by other header frames that exactly the same workers would meet, whatever a worker might declare (for example the same frames in another order, with repetitions, with other metadata, or with a number of threads added that is smaller than one that is asked for anyway). Then everybody is told the same in the same order and the broker ends in the same way. It is enough that the workers that introduce themselves in this history meet both or neither (so a requirement that all of them meet need not be asked for). The only trace is the text of a refusal, which lists the requirements. Numbers of threads must be well-formed: otherwise one of two such requests can be refused and the other end the broker.", "quantifier": "all histories and all replacements of the header frames of requests by ones the same workers meet, all configurations and environments, both queue managers", "why_tests_cant": "The claim compares all pairs of histories that differ in this way, including everything that happens to a job after it was accepted.", "anchors": ["src/worker.cpp:113-152", "src/handlers/broker_handler.cpp:86-175", "src/queuing/multi_queue_manager.cpp:31-65", "src/queuing/single_queue_manager.h:25-134"]}
{"id": "C122", "title": "Descriptions of workers are for people only", "statement": "Change, in any history, the additional information with which workers introduce themselves (descriptions and whatever else comes after the empty frame, or leave it out), except for the current job. Then the broker sends the same messages in the same order to the same receivers and ends in the same way. Only the description of the worker is another one in the text of a complaint about a second, different introduction and in the text of a notification about a job that is lost with its worker.", "quantifier": "all pairs of histories that differ in the additional information of introductions, all configurations and environments, both queue managers", "why_tests_cant": "The claim compares all pairs of histories that differ in this way; a test compares a few descriptions.", "anchors": ["src/handlers/broker_handler.cpp:177-259", "src/worker.cpp:134-141", "src/handlers/broker_handler.cpp:400-445"]}
{"id": "C123", "title": "How workers list their headers does not matter", "statement": "Change, in any history, the way in which workers list their headers when they introduce themselves: in another order, or some of them several times; every worker may do it in its own way, but always in the same way, so that the values declared under each name remain the same and different lists remain different. Then the broker sends the same messages in the same order to the same receivers and ends in the same way. Headers with different names may change places freely, in every introduction in another way. (The numbers of threads are well-formed.)", "quantifier": "all ways of listing headers, all pairs of histories that differ in this way, all configurations and environments, both queue managers", "why_tests_cant": "The claim compares all pairs of histories that differ in this way, for all ways of listing; a test compares a few orders of a few headers.", "anchors": ["src/handlers/broker_handler.cpp:177-259", "src/worker.cpp:95-153"]}
{"id": "C124", "title": "Headers that no client asks for do not matter", "statement": "Take any history and a set of names that contains the names of all headers its requests ask for (metadata does not count). Let every worker declare additional headers with other names, each worker its own ones, whenever it introduces itself. Then the broker sends the same messages in the same order to the same receivers and ends in the same way. The same holds if workers drop such headers or change their values, provided that an introduction that repeats the headers of another one of the same worker still does, and one that does not still does not. (The numbers of threads are well-formed.)", "quantifier": "all sets of names, all additional headers, all pairs of histories that differ in this way, all configurations and environments, both queue managers", "why_tests_cant": "The claim compares all pairs of histories that differ in this way; a test compares a few workers with a few additional headers.", "anchors": ["src/handlers/broker_handler.cpp:98-259", "src/worker.cpp:95-153"]}
{"id": "C125", "title": "Hardware groups matter only as far as requests tell them apart", "statement": "Change, in any history, the hardware groups with which workers introduce themselves, so that each hwgroup value a request of the history asks for allows the new group exactly if it allows the old one; in particular in any way whatsoever if no request asks for a hardware group. Then the broker sends the same messages in the same order to the same receivers and ends in the same way.", "quantifier": "all pairs of histories that differ in this way, all configurations and environments, both queue managers", "why_tests_cant": "The claim compares all pairs of histories that differ in this way; a test compares a few names of groups.", "anchors": ["src/handlers/broker_handler.cpp:177-259", "src/worker.cpp:36-68", "src/worker.cpp:95-153"]}
{"id": "C126", "title": "What a worker declares matters only by the requests it can process", "statement": "Change, in any history, the hardware groups and the headers with which workers introduce themselves, so that each worker can process the same requests of the history before and after the change, and so that an introduction repeats the headers of another one of the same worker exactly if it did before. If numbers of threads are numbers, the broker sends the same messages in the same order to the same receivers and ends in the same way. For example, a worker may declare more threads than any request asks for.", "quantifier": "all pairs of histories that differ in this way, all configurations and environments, both queue managers", "why_tests_cant": "The claim compares all pairs of histories that differ in this way; a test compares a few workers.", "anchors": ["src/handlers/broker_handler.cpp:177-259", "src/worker.cpp:36-68", "src/worker.cpp:95-153"]}
