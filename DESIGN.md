# Formal model of ReCodEx/broker in Lean 4

## Layout

| Directory (under `lean/Verif/`) | Content |
|---|---|
| `Model/` | executable model, function by function, each definition citing file and lines in `/repo` |
| `Spec/` | small specifications, written without the model's helpers: what a trace of messages counts, what "capable" means, which item of the configuration file means what ... |
| `Proof/` | lemmas, invariants, the refinement to a machine for the life cycle of jobs |
| `Props/` | the property theorems, one file per topic, each with a concrete case (`example`) that meets its hypotheses |
| `Tests/` | the project's own unit tests (`/repo/tests`), evaluated on the model |

`properties.jsonl` has the claims in English, `MANIFEST.json` the theorems for each of them, `AXIOMS.md` the axioms each theorem depends on, `seeded/LOG.jsonl` the wrong programs the theorems were tried on. There, `proofs_broken_directly` lists proofs that no longer compile, and `theorems_failed` all theorems that depend on one of them. This overstates: a broken proof is not always a false statement, and an unnamed instance that breaks counts for all instances of its file, so that an edit of one queue manager may list theorems about the other one. Only a theorem that survives is conclusive, as a sign to tighten it; several log lines cover only the newest properties of their time.

## What is modelled

| Source in `/repo/src` | Model | How |
|---|---|---|
| `handlers/broker_handler.cpp` | `Model/Handler.lean` | every command, both callbacks, timer; every function |
| `queuing/multi_queue_manager.cpp` | `Model/Multi.lean` | every function |
| `queuing/single_queue_manager.h` | `Model/Single.lean`, `Model/Policy.lean` | every function; with the default template arguments and with arbitrary ones |
| `queuing/queue_manager_interface.h` | `Model/Queue.lean` | type class |
| `worker.cpp`, `worker.h`, `worker_registry.cpp` | `Model/Worker.lean`, `Model/Basic.lean` | header matchers, requests, descriptions, registry |
| logging calls of `handlers/broker_handler.cpp` | `Model/Log.lean` | every call, its level and its text; spdlog itself is assumed to write each entry at or above its level once and in order |
| `notifier/reactor_status_notifier.cpp` | `Model/Handler.lean` | the messages it emits |
| `handlers/status_notifier_handler.cpp`, `helpers/curl.cpp` | `Model/Notifier.lean` | parameters, URL, body, retry loop; libcurl is "success or failure" |
| `reactor/reactor.cpp`, `reactor/command_holder.cpp`, `broker_connect.cpp` | `Model/Reactor.lean`, `Model/Core.lean` | registration, routing, poll loop, asynchronous handler, both threads as a transition system |
| `reactor/reactor.cpp` with any sockets and handlers | `Model/Loop.lean` | registration, routing, nested calls, any number of asynchronous handlers and their responses; not the end of the loop (`Model/Process.lean`) |
| `reactor/router_socket_wrapper.cpp`, `message_container.cpp` | `Model/Zmq.lean` | frames and flags |
| failing calls of `recv`, `send` and `zmq::poll` | `Model/Faults.lean` | at every point, each kind on its own |
| failing calls of any kind, also on the in-process socket and in the notifier thread | `Model/AllFaults.lean` | at every point, all kinds together |
| `config/*.cpp`, `config/*.h` | `Model/Config.lean` | every item |
| `main.cpp`, `broker_core.cpp` (constructor, `force_exit`), beginning and end of `reactor::start_loop`, `reactor::terminate`, destructors | `Model/Process.lean` | how the process starts and ends; order of destruction of the members of `reactor` |
| logging calls outside `broker_handler.cpp`, `curl_post` without a handle | `Model/ProcLog.lean` | all of them; the entries of the two threads are kept in two lists, the log is any interleaving |
| `install/munin-broker` | `Model/Munin.lean` | the question, the dictionary and the conversions; its socket and its fixed texts are not |
| `broker_core.cpp`, `helpers/logger.cpp`, `helpers/string_to_hex.cpp` | `Model/Core.lean`, `Model/Worker.lean` | choice of the queue manager, refusal to start, levels, header of the log |

Not modelled: the time and level spdlog puts before an entry (any prefix, C82), its rotation of files; YAML syntax; inside of ZeroMQ and libcurl; `boost::program_options` (its result is an input); destructors other than those of the reactor's members (`reactor::terminate` is never called by the broker itself; C73 and C74 are about the reactor as a component); running out of memory.

## Modelling decisions

* **Strings.** A C++ `std::string` (bytes) is a Lean `String` whose characters are the bytes (code points below 256). Theorems quantify over all Lean strings, a superset. The order of `std::less<std::string>` is Lean's lexicographic order on code points.
* **Objects and pointers.** `worker` and `request` objects are immutable records with an address (`addr`, chosen by the allocator, an arbitrary input of each step) or an object number (`rid`). Their mutable fields (`liveness`, `failure_count`) are in heap functions of the handler state. Comparison of pointers is comparison of addresses; `std::map<worker_ptr, _>` is a list sorted by address.
* **`size_t`** values are natural numbers with explicit wrap-around at 2^64 (`szInc`, `szDec`).
* **Exceptions and undefined behaviour** are distinct outcomes of a step (`Err.exn`, `Err.ub`). Nothing between the handlers and `main` catches exceptions, so an exception ends the process.
* **`std::sort`** is an arbitrary function that returns some sorted permutation (`Sorter`), because it is not stable.
* **Clock.** The clock is an arbitrary function; no monotonicity is assumed unless a theorem says so.
* **Responses.** `respond(...)` appends to an output list; a step yields the messages emitted, in order.
* **Histories** (`Run`) are lists of steps (state before, message, state after with the messages emitted), all successful, from the initial state.
* **Executions of the process** (`SRun`) interleave arrivals, returns of `zmq::poll`, steps of the main thread (one message handled or sent) and steps of the notifier thread. `SRun.refines` connects them with histories: what the broker handler does in an execution is a history.
* **Sockets.** A `ROUTER` socket is an automaton over frames with the SNDMORE flag: an open message takes further frames until one without the flag. A message that arrives has at least one frame besides the identity.
* **In-process pipe.** ZeroMQ keeps the order, drops messages for a peer that is not connected yet, never drops while there are fewer than `room` messages, and is arbitrary beyond that.

## Proof architecture

1. The laws of the queue manager interface (`LawfulQM`) are stated with three multisets (registered workers, pairs of worker and running job, waiting jobs) and proved for both managers.
2. The handler is generic over the manager. Every successful step refines a sequence of events (`LSteps`) of a small machine for the life cycle of jobs (register, accept, send, park, pull, done, failed, cancel, expire, give up); which sequences belong to which message is an inductive type (`Script`).
3. Properties of histories are inductions over events, transported to statements about messages.
4. The process level adds the invariant of the two threads and the pipe (`SInv`, `Pipeline`).
5. Properties that are false of the code are refuted by a concrete history evaluated in the kernel (`..._refuted`); the strongest true part found is proved as `..._partial`.

## Trusted base

* Lean 4.33's kernel. Axioms: at most `propext`, `Classical.choice`, `Quot.sound` (`AXIOMS.md`); no `sorry`, no `native_decide`, no `bv_decide`, none of our own.
* The reading of the C++ that the model is. It is not connected to the code by a machine; the comments with files and lines are there to check it. As a check by examples, every test of `/repo/tests` (broker handler, both queue managers, registry, worker, configuration) is translated in `Tests/` and holds of the model; of the reactor tests, which run threads, the routing and the framing are. They are tests, not proofs, and none of them is in the manifest.
* Assumptions about the surroundings, all of them parameters or hypotheses in the model:
  * allocator: a new `worker` does not get the address of an object still alive (`worker_timers_` keeps every worker alive, so this means the address is not in `worker_timers_` and not in the registry);
  * `std::sort` returns a sorted permutation; for C24 (metadata is inert) and C67 with the single-queue manager it only looks at arrival times;
  * `std::stoul`, `std::stoll`, `std::to_string` as specified by the standard on a 64-bit platform;
  * ZeroMQ as described under "Sockets" and "In-process pipe";
  * yaml-cpp: a document is a tree of nodes; the conversions of scalars are arbitrary functions of the text with results in the range of the type;
  * `boost::filesystem`: `filename` and `parent_path` are arbitrary functions;
  * libcurl: a request succeeds or fails; C strings end at the first NUL byte.

## Where code and property disagree

Each of these has a theorem with a concrete witness, and a partial theorem with what is true.

| Property | Finding |
|---|---|
| C14 | A new worker has liveness 0; the first decrement wraps to 2^64-1. A worker that sends nothing after its `init` is never given up. (`C14_refuted`, `C14_fresh_survives`) |
| C15, C29 | A worker that repeats its `init` with other headers is registered a second time, the old entry stays, and messages are attributed to the old entry. |
| C17 | After an INTERNAL_ERROR report the worker gets no waiting job although it is idle (job requeued to another worker, or an adopted job dropped). |
| C20 | Reachable crashes and undefined behaviour: `eval` without job id (`std::out_of_range`), `eval` with nothing after the job id (iterator past the end), `init` with `threads=abc` or `eval` with such a requirement (`std::invalid_argument`), `done` from an idle registered worker (null pointer), a message without frames. |
| C71 | `first_idle_worker_selector` walks `std::map<worker_ptr, …>`, which is ordered by the addresses of the worker objects: which of several idle workers gets a job depends on the memory allocator. |
| C72 | `reactor::async_handler_socket_` is declared after `handlers_` and so destroyed first. The destructor of the asynchronous wrapper sends `TERMINATE` on it. An exception that leaves `start_loop` (`eval` without a job id is enough, so is an address in use) unwinds `main`, destroys the reactor and gets there: undefined behaviour instead of "Something very bad happend!" and status 1. |
| C73 | The `TERMINATE` message is dropped by the `ROUTER` socket if the notifier thread is not connected yet or its pipe is full; `join` then waits forever. |
| C74 | `start_loop` sets the termination flag to false, an earlier `terminate` is lost. |
| C75 | With a single worker the two queue managers differ only if the worker announces a job (C44), or if the wall clock goes back (or shows equal times and `std::sort` swaps them). |
| C76 | A worker that pings twice before it reads an answer may be asked twice to introduce itself. The second introduction may reach the broker after it gave the worker a job and lost sight of it again: then the broker registers the worker as idle, and the report of the job dereferences a null pointer. A message without frames that the single-queue manager sends (C44) counts as a message the worker ignores. |
| C77 | `username:password` is handed to libcurl, which takes everything before the first colon for the user name. |
| C78 | With the multi-queue manager: worker `w` reports an internal error while a job waits in its queue; its job goes to the idle worker `v` and `w` is given nothing. When `v` is done everything is at rest and the waiting job is stuck until `w` gets and finishes another job, or expires (`C78_refuted`). |
| C79 | With the multi-queue manager the worker for a job is chosen by turns alone. A job may wait for a busy worker while another worker, just as able, is idle (`C79_refuted_idle`); and the turn used up by a job that moves after an internal error makes the next job go to the same worker again (`C79_refuted`). |
| C81 | The log does not say whether a job succeeded or failed: the logs of both are the same at every level (`C81_outcome_refuted`). With the single-queue manager, a worker that registers with a job makes the broker log that the job was sent to it, while the message it sends has no frames (`C81_sent_refuted`). |
| C82 | Ids and headers are written to the log as they come. A client that puts a line feed into a job id can forge lines of the log (`C82_refuted`). |
| C85 | the arrival time is the wall clock in milliseconds and `std::sort` is not stable: requests that come in the same millisecond, or after the clock was set back, can be served out of order (`C85_still_false`, `C85_back_false`). |
| C90 | All asynchronous handlers share one socket on the reactor's side; a message without frames for one of them stays open, and the next message for another one becomes part of it. The broker has one asynchronous handler and sends it no such message. |
| C92 | With the single-queue manager the presence of a group of workers can change what another group sees, although they share no jobs: `select` prefers idle workers with lower addresses, and each request takes a reading of the clock. |
| C93 | The reactor ignores the result of `receive_message`. After a failing `recv` the broker handles what was read of the message, and the frames left in the socket are read as a message of their own whose first frame is taken for the sender. A worker can so make the broker believe that another worker has finished its job. |
| C94 | The result of `send_message` is ignored as well. After a `send` that fails in the middle of a message the socket is still in this message; the next message is appended to it and goes to the wrong peer. |
| C95 | Nothing catches the exception of an interrupted `zmq::poll`; it leaves `start_loop`, and the destruction of the reactor uses a socket that is gone. The one of `recv` in the notifier thread ends the process by `std::terminate`. |
| C98 | If the sockets cannot be created, or an exception leaves the main loop, nothing of level error or above is logged. |
| C99 | If `curl_easy_init` returns a null pointer, `curl_post` returns normally: the notification is lost and nothing is logged. |
| C102 | Nothing catches the exception of a `send` on the in-process socket: in `operator()` it leaves the loop (see C95), in the destructor of the wrapper it ends the process by `std::terminate`. |
| C103 | `process_worker_init` returns without looking at the rest of the message if the headers are those it knows; with other headers it adds a second entry and leaves the first. A worker that restarts within the time of the heartbeat and pings keeps the job it has lost; nobody is told. |
| C104 | The broker keeps nothing across restarts. `process_worker_done` ignores reports of unknown workers, so a job whose report arrives before the worker was asked to introduce itself is lost without a word. A worker that is started anew while its old entry is still there may get a job, be lost sight of, and then be registered as idle by the introduction that was under way; its report is then dereferenced through a null pointer. |
| C106 | With the multi-queue manager the jobs waiting for a worker that falls silent are moved without counting a failure and the monitor is told `ABORTED` about each of them, although nothing was aborted; the messages to the monitor are therefore not bounded linearly by what was received (`C106_refuted_monitor`). |
| C111 | With the single-queue manager a broker whose workers have all left may choose other workers than a new one: the timers of expired workers are kept (`worker_timers_` is never cleaned), so their addresses stay in use and new objects get other ones, and the single-queue manager goes through idle workers by address. `C111_single_false`; proved for growing addresses. |
| C31, C44 | `single_queue_manager::add_worker` returns the current request; for an adopted job it has no frames, so `init` with `current_job` sends a message that consists of the identity frame only, with SNDMORE, and the next message on this socket is merged into it. A bare `progress` from a worker does the same to the monitor's socket. |
| C33 | Notifications emitted before the notifier thread has connected, or while its pipe is full, are dropped silently. |
| C34 | Parameters of HTTP requests are not escaped: the text of a worker's failure message can add or overwrite parameters. |
| C38 | `notifier_config::port` has no initialiser. |
| C39 | Bytes from 0x80 on are sign-extended and give eight hexadecimal digits. |
| C40 | The documented levels `emerg`, `alert` and `notice` select `trace`. |
| C45 | When two workers die in the same tick, the job of the first can be given to the second, which is removed in the same tick: it is charged a failure without a chance. |
| C46, C97 | `worker_timers_` entries are never erased; one remains for each registration there has ever been. |
| C61 | The whole wait in which a worker's message was picked up is held against the worker, because the timer is served after the sockets: with `max_liveness = 1` and a short interval it is removed right after its ping. A broker whose waits all return within a millisecond never removes anyone. |
| C66 | With `max_request_failures = 0` the text says "reassigned too many (18446744073709551615) times" about a job that was never sent. (`C66_zero_limit_text`) |

Further observations, not properties of their own: timeouts are not counted in `failed-jobs`; the key `jobs-in-progress` is missing from the statistics before the first timer message; a FAILED report is not announced to the monitor; a header frame without `=` is a header whose name and value are the whole frame; the elapsed time passed to the handler excludes the time spent in handlers and cuts each poll to whole milliseconds, so that a busy broker's clock runs slow (C49 bounds it); `ping_interval` from 2^63 on is negative; a `queue_manager` that is not a scalar means `single`; a failing `curl_easy_init` is taken as success; the POST body and the URL end at a NUL byte.

## How each property is proved

| Id | Method |
|---|---|
| C01, C02 | counting invariant over the life-cycle machine |
| C03, C52, C57, C66 | potential functions over the life-cycle machine |
| C04, C16, C21 | every request held or sent stems from a client message with these header frames, every worker from an `init` (`Run.prov`); matching against independent specification |
| C05, C06, C54 | invariants on running pairs |
| C07-C12, C28, C30, C41-C43, C47, C48, C55, C59 | case analysis of `Script`, with invariants of histories |
| C13, C14 | induction over histories with the timers and counters of one worker |
| C15, C45, C46 | invariants of registry and managers |
| C17-C19, C44 | invariants of each queue manager |
| C20 | total correctness of every command outside the list of hazards |
| C22, C23, C68 | counting invariant; state after each timer message |
| C24-C27, C34, C37-C40, C53 | functions on strings and documents, by induction |
| C31-C33, C36, C49, C51, C60, C62, C63 | invariants of executions of the process |
| C35, C50, C58 | induction over attempts; case analysis; composition with C03, C37 |
| C56 | potential function for the failures of one timer message |
| C61 | refinement of executions of the process to histories of the handler, then C13, C14 |
| C64 | potential functions over the queues |
| C67, C24 (metadata) | handling a message commutes with renaming (`step_ren`) |
| C69 | induction on the number of held jobs; a waiting job has a busy or stalled worker (`drain_busy`) |
| C70 | queue operations of the step (`step_ops`) and its events (`done_report`) |
| C71 | relation between states up to a one-to-one correspondence of addresses; every function of the handler and of the queue managers preserves it |
| C72-C74 | the process with its start and end on top of executions (`PRun.tail`); invariant of the wait for the notifier thread |
| C75 | relational program logic with the multi-queue manager on one side and the single-queue manager on the other (`Proof/OneWorker.lean`) |
| C76 | invariant of the broker, the worker and the two message channels between them (`Proof/Peer.lean`), on top of the view of the life-cycle machine on one worker (`Proof/View.lean`) |
| C77 | case distinction on the configuration; specification of libcurl's splitting at the first colon (`Spec/Credentials.lean`) |
| C78 | a weight of the deployment that every step of work decreases: messages under way, jobs being processed, and how often the requests the broker holds may still be given to workers (`Proof/Rest.lean`, `Proof/Potential.lean`) |
| C79 | the ring restricted to the group is a list `A ++ B` with equal counts in `A` and one more in `B` (`ring_counts`); what enqueueing does to the numbers of jobs (`Proof/Balance.lean`) |
| C80-C82 | program logic relating the handler with a logger to the one without (`Logs` in `Proof/Log.lean`), parametrised by what the entries of a part say about the state before and after it (`Trail`) |
| C83 | induction on the calls; C27 for each worker |
| C84 | the answer to one message (from the script of the handler), induction over histories, refinement of the process to histories and intact delivery (C31) |
| C85 | simulation between queue managers: if two of them give the same answers in related states, brokers with them have the same transcripts (`Proof/QueueSim.lean`); a list sorted by strictly increasing times is a fixed point of every sorting algorithm |
| C86 | relational program logic between executions that differ by one unused request object (`Proof/Skip.lean`); the unused reading of the clock is removed with C71 (multi-queue manager) and C85 (single-queue manager) |
| C87 | simulation between queue managers (as for C85); sorted maps as functions of the address, sum of the lengths of the queues |
| C88 | the relation "same answers to all further calls" is a simulation (`Proof/QueueSim.lean`) |
| C89 | the laws of queue managers (`LawfulQM`, `Conserving`, `Draining`) for every lawful policy; the generic theorems then apply |
| C90 | invariants of executions of `Model/Loop.lean`; accessibility of the call stack for termination |
| C91 | simulation in both directions between `Model/Loop.lean` with the broker's handlers and `Model/Reactor.lean` (phases of a call) |
| C92 | one-sided simulation of an execution by the one without the other group (`ApartQM`, `Proof/Apart*.lean`), for `Rota` and `Fifo`; transferred to the real queue managers by C87 and C85 |
| C93, C94 | a failing `recv` is a rewriting of what waits in the socket followed by an ordinary step, so the invariant of the process and the refinement of the handler carry over (`Proof/Faults.lean`); a failing `send` by simulation up to what was sent |
| C95 | induction over executions; conservative over `PRun` |
| C96 | the simulation of C71 with other identities on the other side (`LRel`, `WN` in `Proof/Layout.lean`); the same allocator gives the same addresses |
| C97 | invariant of the registry machine (`RState.step`): registered workers have a timer, so only a registration adds an entry; the refutation repeats a visit of a worker `n` times |
| C98 | induction over executions of the process with its log: the end is reached by one transition only, and nothing follows it |
| C99 | the retry loop with the results of `curl_post`: entries and failed requests correspond one to one; C35 for the four attempts |
| C100 | noninterference: the transitions commute with exchanging the record of what the notifier did |
| C101 | the invariant of `SRun.refines` with the log of the handler (`C80_same`) instead of its messages |
| C102 | simulation: the state of the process is that of an execution of the loop with failures on the registered sockets only (`Tail`, as for C72 to C74) |
| C103 | the events that end the processing of a request (as for C54), bound of C13 for every round of a ping and a timer message |
| C104 | the invariant of C76 with sublists in place of equalities, closed under losing messages, setting up the connection anew and starting the broker anew (the broker then has no view on the worker, as after an expiry) (`Spec/Restart.lean`, `Proof/Restart.lean`) |
| C105 | the replies are a function of the registry machine (`step_rs`) and the freeze flag, both of which are folds over the facts (`Spec/Clients.lean`, `Proof/Clients.lean`) |
| C106 | potentials over the life-cycle machine (`WLaws`); for the monitor, registered workers times jobs held (`Spec/Volume.lean`, `Proof/Volume.lean`) |
| C107 | refinement of the life-cycle machine, seen from one job, to an automaton with three kinds of places (`Spec/JobLife.lean`, `Proof/JobLife.lean`) |
| C108 | the abnormal outcomes of a step (`StepErr`), both directions; comparison of sorted multimaps; conversion of numbers (`Spec/Fatal.lean`, `Proof/Fatal.lean`) |
| C109 | Hoare logic for the logging monad (`Ends`), the log up to dispatch entries as a function of message, state before and state after (`Spec/Journal.lean`, `Proof/Journal.lean`) |
| C110 | ledger of a job on the life-cycle machine (`Proof/Ledger.lean`): failure count = times given to workers, less the one in progress; entries counted against events (`Proof/Attempts.lean`) |
| C111 | simulation between a state and the same state without its past: request objects, clock readings and allocations shifted, timers of expired workers hidden (`Proof/Anew.lean`); then the layout simulation of C71 and the plain list of C85 |
| C112 | every computation of the handler but ticks commutes with resetting liveness and timer of a registered worker, and resetting twice is resetting once (`Proof/Heard.lean`); induction over the messages passed |
| C113 | a tick within the interval only adds to the timers, a tick after it is a tick with the sum, and what clients trigger commutes with replacing timers and gauges (`Proof/Ticks.lean`); induction over the messages between |
| C114 | simulation of queue managers that hold the same jobs with the same numbers of readings (`Proof/Clock.lean`, on top of `Proof/QueueSim.lean`); a sorted permutation is unique if no times are equal |
| C115 | an additional law of queue managers (what is given back with a worker is for nobody else); potential: messages told, plus registered workers, plus jobs of clients held (`Proof/Frugal.lean`) |
| C116 | messages not from clients commute with setting the flag (`Proof/Frozen.lean`); messages of clients change nothing but the output while it is set (`Proof/Paused.lean`) |
| C117 | relational reasoning over two computations whose states differ in heartbeats only (`Unmoved`, `Proof/Limits.lean`), and an order on counters and timers that ticks preserve (`Patient`, `Proof/Patience.lean`) |
| C118 | the same relation for computations that expire workers (`Proof/Removals.lean`): two sublists of the registry whose removal leaves the same registry are equal, so that jobs are moved in the same order |
| C119 | the registry evolves by itself (`RState`) and commutes with a change of unit (`Proof/Units.lean`); the same workers expire, the rest is as for C118 |
| C120 | the handling of a final result in closed form (`afterResult`, `Proof/Exchange.lean`), which touches nothing of other workers; such effects commute, then induction over permutations |
| C121 | all requirements in the state are replaced by a representative of those no worker tells apart (`canon`, a member of the class in the quotient); handling a message commutes with that (`Proof/Demand.lean`), given that all workers known come from `init` messages of the history (`Admitted`) |
| C122 | the relation between two executions of C71 and C96 also lets corresponding workers have different descriptions (`LRel.title`); the identities and the addresses are then taken to be the same |
| C123 | the same relation lets corresponding workers have different headers (`LRel.like`) as long as they meet the same requirements; two introductions are the same in one execution iff they are in the other |
| C124 | corresponding workers have to meet the same of those requirements only that may turn up (`LRel.asked`); the requests a queue manager stores are among those that came in (`Carries`) |
| C125 | as C124, with `LRel.asked` for the values of `hwgroup` requirements |
| C126 | as C124, with `LRel.asked` for the requirements of the requests of the history; whether a worker meets them is what C27 says |
| C65 | invariant: each timer is at most the sum of the ticks so far |
