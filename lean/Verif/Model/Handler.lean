import Verif.Model.Queue

/-!
# The broker handler (src/handlers/broker_handler.h, src/handlers/broker_handler.cpp)

The logging calls are left out here; `Model/Log.lean` has the functions with them, and `C80_same` says
that they have no effect on the broker's state or messages.
-/

namespace Broker

/-! ## Messages -/

/-- `message_container` (src/reactor/message_container.h:11-40). -/
structure Msg where
  key : String
  identity : String
  data : List String
  deriving DecidableEq, Repr

/-- `broker_connect::KEY_WORKERS` (src/broker_connect.cpp:3). -/
def keyWorkers : String := "workers"
/-- `broker_connect::KEY_CLIENTS` (src/broker_connect.cpp:4). -/
def keyClients : String := "clients"
/-- `broker_connect::KEY_MONITOR` (src/broker_connect.cpp:5). -/
def keyMonitor : String := "monitor"
/-- `broker_connect::KEY_STATUS_NOTIFIER` (src/broker_connect.cpp:6). -/
def keyNotifier : String := "status_notifier"
/-- `broker_connect::KEY_TIMER` (src/broker_connect.cpp:9). -/
def keyTimer : String := "timer"
/-- `broker_connect::MONITOR_IDENTITY` (src/broker_connect.cpp:11). -/
def monitorIdentity : String := "recodex-monitor"

/-! ## Configuration values the handler reads -/

/-- The parts of `broker_config` used by `broker_handler` (src/config/broker_config.h). -/
structure HConfig where
  /-- `get_max_worker_liveness()`, a `size_t` -/
  maxLiveness : Nat
  maxLiveness_lt : maxLiveness < SZ
  /-- `get_max_request_failures()`, a `size_t` -/
  maxFailures : Nat
  maxFailures_lt : maxFailures < SZ
  /-- `get_worker_ping_interval()` in milliseconds -/
  pingInterval : Int

/-! ## State -/

/-- `runtime_stats_` (src/handlers/broker_handler.h:63).  The constructor emplaces five keys
    (src/handlers/broker_handler.cpp:17-21); "jobs-in-progress" appears at the first timer event
    (line 457), hence the option. -/
structure Stats where
  evaluated : Nat
  failed : Nat
  idle : Nat
  inProgress : Option Nat
  queued : Nat
  workerCount : Nat

/-- State of `broker_handler` with the registry, the queue manager and the mutable fields of the
    worker and request objects. -/
structure HState (Q : Type) where
  /-- `workers_` (the registry's vector) -/
  workers : List Worker
  /-- `queue_` -/
  queue : Q
  /-- `worker_timers_`, in milliseconds.  The 64-bit counter is an unbounded integer here; it does not
      overflow on a clock that does not run backwards (`C65_no_overflow`). -/
  timers : WMap Int
  /-- `worker::liveness` by address (`size_t`) -/
  live : Nat → Nat
  /-- `request::failure_count` by request object (`size_t`) -/
  fc : Nat → Nat
  /-- number of request objects created so far (identities of request objects) -/
  nextRid : Nat
  /-- number of worker objects created so far (index for `Env.alloc`) -/
  allocs : Nat
  /-- number of clock readings so far (index for `Env.clock`) -/
  clockReads : Nat
  /-- `runtime_stats_` -/
  stats : Stats
  /-- `is_frozen_` -/
  frozen : Bool
  /-- messages passed to the response callback during the current event, in order -/
  outs : List Msg

/-- Point update of a heap function. -/
def upd (f : Nat → Nat) (a v : Nat) : Nat → Nat := fun x => if x = a then v else f x

/-- Initial state: constructor of `broker_handler` (src/handlers/broker_handler.cpp:7-21), empty
    registry and queue manager (src/broker_core.cpp:128-145). -/
def HState.init (Q : Type) [QueueManager Q] : HState Q where
  workers := []
  queue := QueueManager.empty
  timers := []
  live := fun _ => 0
  fc := fun _ => 0
  nextRid := 0
  allocs := 0
  clockReads := 0
  stats := { evaluated := 0, failed := 0, idle := 0, inProgress := none, queued := 0,
             workerCount := 0 }
  frozen := false
  outs := []

/-- Handler computations: state plus abnormal outcomes. -/
abbrev HM (Q : Type) := EStateM Err (HState Q)

section
variable {Q : Type}

/-- `respond(message_container(key, identity, data))`. -/
def respond (key identity : String) (data : List String) : HM Q Unit :=
  modify fun s => { s with outs := s.outs ++ [{ key, identity, data }] }

/-- An uncaught C++ exception. -/
def raise {α : Type} (e : Exn) : HM Q α := throw (.exn e)

/-- Undefined behaviour. -/
def undef {α : Type} (u : UB) : HM Q α := throw (.ub u)

/-- An operation that may throw. -/
def liftE {α : Type} : Except Exn α → HM Q α
  | .ok a => pure a
  | .error e => raise e

/-! ## Status notifier (src/notifier/reactor_status_notifier.cpp) -/

/-- `error` (src/notifier/reactor_status_notifier.cpp:9-12). -/
def notifyError (desc : String) : HM Q Unit :=
  respond keyNotifier "" ["type", "error", "message", desc]

/-- `rejected_job` (src/notifier/reactor_status_notifier.cpp:14-19). -/
def notifyRejected (jobId desc : String) : HM Q Unit :=
  respond keyNotifier "" ["type", "job-status", "id", jobId, "status", "FAILED", "message", desc]

/-- `job_done` (src/notifier/reactor_status_notifier.cpp:28-32). -/
def notifyDone (jobId : String) : HM Q Unit :=
  respond keyNotifier "" ["type", "job-status", "id", jobId, "status", "OK"]

/-- `job_failed` (src/notifier/reactor_status_notifier.cpp:34-39). -/
def notifyFailed (jobId desc : String) : HM Q Unit :=
  respond keyNotifier "" ["type", "job-status", "id", jobId, "status", "FAILED", "message", desc]

/-! ## Helpers of the handler -/

/-- `notify_monitor` (src/handlers/broker_handler.cpp:505-515). -/
def notifyMonitor (jobId message : String) : HM Q Unit :=
  respond keyMonitor monitorIdentity [jobId, message]

/-- `send_request` (src/handlers/broker_handler.cpp:483-487). -/
def sendRequest (w : Worker) (r : Req) : HM Q Unit :=
  respond keyWorkers w.identity r.frames

/-- The message `check_failure_count` sends (src/handlers/broker_handler.cpp:495-497). -/
def tooManyMsg (count : Nat) (failureMsg : String) : String :=
  "Job was reassigned too many (" ++ natStr (szDec count)
    ++ ") times. Last failure message was: " ++ failureMsg

/-- `check_failure_count` (src/handlers/broker_handler.cpp:489-503). -/
def checkFailureCount (cfg : HConfig) (r : Req) (failureMsg : String) : HM Q Bool := do
  let s ← get
  if s.fc r.rid ≥ cfg.maxFailures then do
    notifyFailed r.jobId (tooManyMsg (s.fc r.rid) failureMsg)
    notifyMonitor r.jobId "FAILED"
    return false
  else return true

variable [QueueManager Q]

/-- Queue operations on the handler's queue manager. -/
def qAddWorker (env : Env) (w : Worker) (cur : Option Req) : HM Q (Option Req) := do
  let s ← get
  let (r, q) ← liftE (QueueManager.addWorker env.srt s.queue w cur)
  modify fun s => { s with queue := q }
  return r

@[inherit_doc qAddWorker]
def qAssign (env : Env) (w : Worker) : HM Q (Option Req) := do
  let s ← get
  let (r, q) ← liftE (QueueManager.assignRequest env.srt s.queue w)
  modify fun s => { s with queue := q }
  return r

@[inherit_doc qAddWorker]
def qFinished (env : Env) (w : Worker) : HM Q (Option Req) := do
  let s ← get
  let (r, q) ← liftE (QueueManager.workerFinished env.srt s.queue w)
  modify fun s => { s with queue := q }
  return r

@[inherit_doc qAddWorker]
def qTerminated (w : Worker) : HM Q (List Req) := do
  let s ← get
  let (rs, q) ← liftE (QueueManager.workerTerminated s.queue w)
  modify fun s => { s with queue := q }
  return rs

/-- Enqueue with the next clock reading.  The code reads the clock only when the request is put
    into a queue; an unused reading is harmless because `Env.clock` is arbitrary. -/
def qEnqueue (env : Env) (r : Req) : HM Q EnqResult := do
  let s ← get
  let (res, q) ← liftE (QueueManager.enqueueRequest s.queue (env.clock s.clockReads) r)
  modify fun s => { s with queue := q, clockReads := s.clockReads + 1 }
  return res

@[inherit_doc qAddWorker]
def qCurrent (w : Worker) : HM Q (Option Req) := do
  let s ← get
  let (r, q) := QueueManager.currentRequest s.queue w
  modify fun s => { s with queue := q }
  return r

@[inherit_doc qAddWorker]
def qCancelled (w : Worker) : HM Q (Option Req) := do
  let s ← get
  let (r, q) := QueueManager.workerCancelled s.queue w
  modify fun s => { s with queue := q }
  return r

/-- `reassign_request` (src/handlers/broker_handler.cpp:461-481). -/
def reassignRequest (env : Env) (r : Req) : HM Q Bool := do
  let res ← qEnqueue env r
  if res.enqueued then
    match res.assignedTo with
    | some w => do sendRequest w r; return true
    | none => return true
  else do
    notifyMonitor r.jobId "FAILED"
    return false

/-! ## Client commands -/

/-- The header loop of `process_client_eval` (src/handlers/broker_handler.cpp:105-133), from an
    iterator position on.  `none` is the "unexpected end of message" return (lines 113-116);
    otherwise headers, metadata and the frames after the empty one.
    Dereferencing `end()` is undefined (only possible at the first position). -/
def evalHeaders : List String → Headers → Metadata →
    Except UB (Option (Headers × Metadata × List String))
  | [], _, _ => .error .pastEnd
  | f :: rest, hs, md =>
    if f = "" then .ok (some (hs, md, rest))
    else
      match rest with
      | [] => .ok none
      | _ :: _ =>
        let (key, value) := splitHeader f
        if key.toList.take 5 = "meta.".toList then
          evalHeaders rest hs (mapEmplace (String.ofList (key.toList.drop 5)) value md)
        else evalHeaders rest (mmEmplace key value hs) md

/-- The text of the rejection (src/handlers/broker_handler.cpp:165-170). -/
def rejectMessage (hs : Headers) : String :=
  hs.foldl (fun m h => m ++ (h.1 ++ "=" ++ h.2 ++ "; "))
    "No worker available for given headers: "

/-- `process_client_eval` from the creation of the request on
    (src/handlers/broker_handler.cpp:143-175). -/
def submit (env : Env) (identity jobId : String) (headers : Headers) (metadata : Metadata)
    (additional : List String) : HM Q Unit := do
  let s ← get
  let r := Req.full s.nextRid headers metadata jobId additional
  set { s with nextRid := s.nextRid + 1, fc := upd s.fc s.nextRid 0 }
  let res ← qEnqueue env r
  if res.enqueued then do
    match res.assignedTo with
    | some w => sendRequest w r
    | none => pure ()
    respond keyClients identity ["accept"]
  else do
    respond keyClients identity ["reject", rejectMessage headers]
    notifyMonitor jobId "FAILED"

/-- `process_client_eval` (src/handlers/broker_handler.cpp:86-175). -/
def processEval (env : Env) (identity : String) (message : List String) : HM Q Unit := do
  respond keyClients identity ["ack"]
  match message[1]? with
  | none => raise .outOfRange
  | some jobId =>
    match evalHeaders (message.drop 2) [] [] with
    | .error u => undef u
    | .ok none => pure ()
    | .ok (some (headers, metadata, additional)) => do
      let s ← get
      if s.frozen then respond keyClients identity ["reject", "The broker is frozen."]
      else submit env identity jobId headers metadata additional

/-- `process_client_get_runtime_stats` (src/handlers/broker_handler.cpp:517-535): the map is
    iterated in the order of its keys (src/handlers/broker_handler.h:35-45). -/
def statsReply (st : Stats) (frozen : Bool) : List String :=
  ["evaluated-jobs", natStr st.evaluated, "failed-jobs", natStr st.failed,
   "idle-worker-count", natStr st.idle]
  ++ (match st.inProgress with
      | some n => ["jobs-in-progress", natStr n]
      | none => [])
  ++ ["queued-jobs", natStr st.queued, "worker-count", natStr st.workerCount,
      "is-frozen", if frozen then "1" else "0"]

@[inherit_doc statsReply]
def processStats (identity : String) : HM Q Unit := do
  let s ← get
  respond keyClients identity (statsReply s.stats s.frozen)

/-- `process_client_freeze` (src/handlers/broker_handler.cpp:537-545). -/
def processFreeze (identity : String) : HM Q Unit := do
  modify fun s => { s with frozen := true }
  respond keyClients identity ["ack"]

/-- `process_client_unfreeze` (src/handlers/broker_handler.cpp:547-555). -/
def processUnfreeze (identity : String) : HM Q Unit := do
  modify fun s => { s with frozen := false }
  respond keyClients identity ["ack"]

/-- Client commands (src/handlers/broker_handler.cpp:23-41) through
    `command_holder::call_function` (src/reactor/command_holder.cpp:3-12): unknown commands are
    ignored. -/
def clientCommand (env : Env) (command identity : String) (message : List String) : HM Q Unit :=
  if command = "eval" then processEval env identity message
  else if command = "get-runtime-stats" then processStats identity
  else if command = "freeze" then processFreeze identity
  else if command = "unfreeze" then processUnfreeze identity
  else pure ()

/-! ## Worker commands -/

/-- The header loop of `process_worker_init` (src/handlers/broker_handler.cpp:194-206): headers and
    the remaining frames, starting with the empty one if there is one. -/
def initHeaders : List String → Headers → Headers × List String
  | [], hs => (hs, [])
  | f :: rest, hs =>
    if f = "" then (hs, f :: rest)
    else
      let (k, v) := splitHeader f
      initHeaders rest (mmEmplace k v hs)

/-- The loop over additional information (src/handlers/broker_handler.cpp:226-240): description
    and id of the current job; the last occurrence wins. -/
def initExtra : List String → String → Option String → String × Option String
  | [], d, j => (d, j)
  | f :: rest, d, j =>
    let (k, v) := splitHeader f
    if k = "description" then initExtra rest v j
    else if k = "current_job" then initExtra rest d (some v)
    else initExtra rest d j

/-- Addresses of worker objects that are alive: the registry and `worker_timers_` hold shared
    pointers (the queue managers only know workers that are in the registry). -/
def HState.addrs (s : HState Q) : List Nat :=
  s.workers.map (·.addr) ++ s.timers.map (·.1.addr)

/-- `process_worker_init` from the construction of the worker on
    (src/handlers/broker_handler.cpp:222-252). -/
def registerWorker (env : Env) (identity hwgroup : String) (headers : Headers)
    (extra : List String) : HM Q Unit := do
  let s ← get
  let addr := env.alloc s.allocs s.addrs
  let (description, job) := initExtra extra "" none
  let w ← liftE (Worker.create addr identity hwgroup headers description)
  let cur := job.map (Req.incomplete s.nextRid)
  set { s with
    live := upd s.live addr 0, allocs := s.allocs + 1, fc := upd s.fc s.nextRid 0,
    nextRid := s.nextRid + 1, workers := s.workers ++ [w] }
  let req ← qAddWorker env w cur
  match req with
  | some r => sendRequest w r
  | none => pure ()
  modify fun s => { s with timers := s.timers.emplace w 0 }

/-- `process_worker_init` (src/handlers/broker_handler.cpp:177-259).  Several `current_job` frames
    would create several request objects of which only the last survives; the model creates that
    one. -/
def processInit (env : Env) (identity : String) (message : List String) : HM Q Unit := do
  match message with
  | _ :: hwgroup :: rest => do
    let (headers, extra) := initHeaders rest []
    let s ← get
    match regFind identity s.workers with
    | some w =>
      if w.headersEqual headers then pure ()
      else do
        notifyError ("Received two different INIT messages from the same worker ("
          ++ w.getDescription ++ ")")
        registerWorker env identity hwgroup headers extra
    | none => registerWorker env identity hwgroup headers extra
  | _ => pure ()

/-- `failed_request->failure_count += 1` for the result of `worker_cancelled`. -/
def bumpCount (r : Req) : HM Q Unit :=
  modify fun s => { s with fc := upd s.fc r.rid (szInc (s.fc r.rid)) }

/-- Send a request to a worker if there is one
    (`if (new_request) { send_request(worker, new_request, respond); }`). -/
def sendIfSome (w : Worker) : Option Req → HM Q Unit
  | some r => sendRequest w r
  | none => pure ()

/-- `runtime_stats_[STATS_FAILED_JOBS] += 1`. -/
def countFailed : HM Q Unit :=
  modify fun s => { s with stats := { s.stats with failed := szInc s.stats.failed } }

/-- `runtime_stats_[STATS_EVALUATED_JOBS] += 1`. -/
def countEvaluated : HM Q Unit :=
  modify fun s => { s with stats := { s.stats with evaluated := szInc s.stats.evaluated } }

/-- Branch `OK` of `process_worker_done` (src/handlers/broker_handler.cpp:293-302). -/
def doneOk (env : Env) (w : Worker) (jobId : String) : HM Q Unit := do
  notifyDone jobId
  let next ← qFinished env w
  sendIfSome w next
  countEvaluated

/-- Branch `INTERNAL_ERROR` of `process_worker_done` (src/handlers/broker_handler.cpp:311-326). -/
def doneInternal (cfg : HConfig) (env : Env) (w : Worker) (text : String) : HM Q Unit := do
  match ← qCancelled w with
  | none => undef .nullDeref
  | some r => do
    bumpCount r
    if r.complete = false then
      notifyRejected r.jobId ("Job failed with '" ++ text ++ "' and cannot be reassigned")
    else do
      if (← checkFailureCount cfg r text) then do
        let _ ← reassignRequest env r
        pure ()
      else do
        let next ← qAssign env w
        sendIfSome w next
    countFailed

/-- Branch `FAILED` of `process_worker_done` (src/handlers/broker_handler.cpp:334-344). -/
def doneFailed (env : Env) (w : Worker) (jobId text : String) : HM Q Unit := do
  notifyFailed jobId text
  match ← qCancelled w with
  | none => undef .nullDeref
  | some r => do
    bumpCount r
    let next ← qAssign env w
    sendIfSome w next
    countFailed

/-- `process_worker_done` (src/handlers/broker_handler.cpp:261-352). -/
def processDone (cfg : HConfig) (env : Env) (identity : String) (message : List String) :
    HM Q Unit := do
  let s ← get
  match regFind identity s.workers with
  | none => pure ()
  | some w =>
    match message with
    | _ :: jobId :: status :: rest => do
      match ← qCurrent w with
      | none => undef .nullDeref
      | some current =>
        if jobId ≠ current.jobId then pure ()
        else if status = "OK" then do
          doneOk env w jobId
          let _ ← qCurrent w
        else if status = "INTERNAL_ERROR" then
          match rest with
          | [text] => do
            doneInternal cfg env w text
            let _ ← qCurrent w
          | _ => pure ()
        else if status = "FAILED" then
          match rest with
          | [text] => do
            doneFailed env w jobId text
            let _ ← qCurrent w
          | _ => pure ()
        else do
          let _ ← qCurrent w
    | _ => pure ()

/-- `process_worker_ping` (src/handlers/broker_handler.cpp:354-368). -/
def processPing (identity : String) : HM Q Unit := do
  let s ← get
  match regFind identity s.workers with
  | none => respond keyWorkers identity ["intro"]
  | some _ => respond keyWorkers identity ["pong"]

/-- `process_worker_progress` (src/handlers/broker_handler.cpp:370-381); `message` is not empty
    here because the command was read from it. -/
def processProgress (message : List String) : HM Q Unit :=
  respond keyMonitor monitorIdentity message.tail

/-- Worker commands (src/handlers/broker_handler.cpp:43-61) through
    `command_holder::call_function` (src/reactor/command_holder.cpp:3-12). -/
def workerCommand (cfg : HConfig) (env : Env) (command identity : String)
    (message : List String) : HM Q Unit :=
  if command = "init" then processInit env identity message
  else if command = "done" then processDone cfg env identity message
  else if command = "ping" then processPing identity
  else if command = "progress" then processProgress message
  else pure ()

/-! ## Timer -/

/-- One round of the loop over workers in `process_timer`
    (src/handlers/broker_handler.cpp:388-403); the result tells whether the worker goes to
    `to_remove`. -/
def tickWorker (cfg : HConfig) (time : Int) (w : Worker) : HM Q Bool := do
  let s ← get
  let t := s.timers.getD w 0 + time
  if t > cfg.pingInterval then do
    let l := szDec (s.live w.addr)
    set { s with live := upd s.live w.addr l, timers := s.timers.put w 0 }
    return decide (l ≤ 0)
  else do
    set { s with timers := s.timers.put w t }
    return false

/-- The loop over workers (src/handlers/broker_handler.cpp:388-403). -/
def tickWorkers (cfg : HConfig) (time : Int) : List Worker → HM Q (List Worker)
  | [] => pure []
  | w :: ws => do
    let expired ← tickWorker cfg time w
    let rest ← tickWorkers cfg time ws
    return if expired then w :: rest else rest

/-- `failure_msg` (src/handlers/broker_handler.cpp:406). -/
def timeoutMsg : String := "Worker timed out and its job cannot be reassigned"

/-- The loop over the requests of an expired worker (src/handlers/broker_handler.cpp:419-435);
    the result is `unassigned_requests`. -/
def settleRequests (cfg : HConfig) (env : Env) : List Req → HM Q (List Req)
  | [] => pure []
  | r :: rs =>
    if r.complete = false then do
      notifyRejected r.jobId timeoutMsg
      notifyMonitor r.jobId "FAILED"
      settleRequests cfg env rs
    else do
      if (← checkFailureCount cfg r timeoutMsg) then do
        if (← reassignRequest env r) then do
          notifyMonitor r.jobId "ABORTED"
          settleRequests cfg env rs
        else do
          let rest ← settleRequests cfg env rs
          return r :: rest
      else settleRequests cfg env rs

/-- Notifications about requests that could not be assigned
    (src/handlers/broker_handler.cpp:437-444). -/
def rejectAll (desc : String) : List Req → HM Q Unit
  | [] => pure ()
  | r :: rs => do
    notifyRejected r.jobId desc
    rejectAll desc rs

/-- One round of the loop over expired workers (src/handlers/broker_handler.cpp:408-445). -/
def expireWorker (cfg : HConfig) (env : Env) (w : Worker) : HM Q Unit := do
  modify fun s => { s with workers := regRemove w s.workers }
  match ← qCurrent w with
  | some r => bumpCount r
  | none => pure ()
  let requests ← qTerminated w
  let unassigned ← settleRequests cfg env requests
  rejectAll ("Worker " ++ w.getDescription ++ " dieded") unassigned

/-- The loop over expired workers (src/handlers/broker_handler.cpp:408-445). -/
def expireWorkers (cfg : HConfig) (env : Env) : List Worker → HM Q Unit
  | [] => pure ()
  | w :: ws => do
    expireWorker cfg env w
    expireWorkers cfg env ws

/-- The loop that counts idle workers (src/handlers/broker_handler.cpp:450-455). -/
def countIdle : List Worker → HM Q Nat
  | [] => pure 0
  | w :: ws => do
    let cur ← qCurrent w
    let n ← countIdle ws
    return if cur.isNone then n + 1 else n

/-- Update of the gauges at the end of `process_timer`
    (src/handlers/broker_handler.cpp:447-458).  Sizes of containers are assumed to fit `size_t`. -/
def updateGauges : HM Q Unit := do
  let s ← get
  let queued := QueueManager.queuedCount s.queue
  let idle ← countIdle s.workers
  modify fun s => { s with stats := { s.stats with
    queued := queued, workerCount := s.workers.length, idle := idle,
    inProgress := some (s.workers.length - idle) } }

/-- `process_timer` (src/handlers/broker_handler.cpp:383-459).  `message.data.front()` is
    undefined for an empty vector. -/
def processTimer (cfg : HConfig) (env : Env) (data : List String) : HM Q Unit := do
  match data with
  | [] => undef .pastEnd
  | f :: _ => do
    let time ← liftE (stoll f)
    let s ← get
    let toRemove ← tickWorkers cfg time s.workers
    expireWorkers cfg env toRemove
    updateGauges

/-! ## Events -/

/-- The effect of hearing from a worker (src/handlers/broker_handler.cpp:67-72). -/
def touchWorker (cfg : HConfig) (identity : String) : HM Q Unit := do
  let s ← get
  match regFind identity s.workers with
  | none => pure ()
  | some w =>
    set { s with live := upd s.live w.addr cfg.maxLiveness, timers := s.timers.put w 0 }

/-- `on_request` (src/handlers/broker_handler.cpp:64-84).  `message.data.at(0)` throws for a
    message without frames.  The three keys are different, so the sequence of `if` statements is
    a case distinction. -/
def onRequest (cfg : HConfig) (env : Env) (m : Msg) : HM Q Unit := do
  if m.key = keyWorkers then do
    touchWorker cfg m.identity
    match m.data with
    | [] => raise .outOfRange
    | command :: _ => workerCommand cfg env command m.identity m.data
  else if m.key = keyClients then
    match m.data with
    | [] => raise .outOfRange
    | command :: _ => clientCommand env command m.identity m.data
  else if m.key = keyTimer then processTimer cfg env m.data
  else pure ()

/-- Handling of one message by the broker handler, starting with no output. -/
def step (cfg : HConfig) (env : Env) (m : Msg) (s : HState Q) :
    EStateM.Result Err (HState Q) Unit :=
  onRequest cfg env m { s with outs := [] }

end

end Broker
