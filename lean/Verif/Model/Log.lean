import Verif.Model.Core
import Verif.Model.Handler

/-!
# What the broker handler writes to the log

`Model/Handler.lean` leaves the logging calls of src/handlers/broker_handler.cpp out.  Here are the
functions that contain such calls once more, with them; the parts without logging are those of
`Model/Handler.lean`.  That the two models do the same is a theorem (`C80_same`).

The logger (spdlog) writes every entry whose level is at least its own, once and in order; a failure
to write is not modelled (spdlog reports it on the standard error stream and goes on).
-/

namespace Broker

/-! ## Entries -/

/-- The logging calls in src/handlers/broker_handler.cpp with their arguments. -/
inductive LogEntry where
  /-- line 90 -/
  | evalReceived
  /-- line 114 -/
  | unexpectedEnd
  /-- line 139; the second argument of the call is always the same text -/
  | rejectedFrozen (job : String)
  /-- line 151 -/
  | incoming (job : String)
  /-- line 160 -/
  | saved
  /-- line 166 -/
  | rejectedHeaders (job : String)
  /-- line 169 -/
  | rejectedHeader (name value : String)
  /-- line 183 -/
  | initReceived
  /-- line 187 -/
  | initNoArgument
  /-- line 257 -/
  | added (worker headers : String)
  /-- line 267 -/
  | doneReceived
  /-- line 272 -/
  | doneUnknown
  /-- line 277 -/
  | doneShort (worker : String)
  /-- lines 284-287 -/
  | doneMismatch (worker said current : String)
  /-- lines 305-307 -/
  | internalArgs (worker : String)
  /-- lines 329-330 -/
  | failedArgs (worker : String)
  /-- line 346 -/
  | unexpectedStatus (status worker : String)
  /-- line 350 -/
  | free (worker : String)
  /-- line 409 -/
  | expired (worker : String)
  /-- lines 463-464 -/
  | reassigning (job : String) (failures : Nat)
  /-- line 470 -/
  | notEnqueued (job : String)
  /-- line 477 -/
  | waiting (job : String)
  /-- line 486 -/
  | sent (job worker : String)
  /-- line 533 -/
  | statsRequested
  /-- line 541 -/
  | frozen
  /-- line 551 -/
  | unfrozen
  deriving DecidableEq, Repr

/-- The level of each call. -/
def LogEntry.level : LogEntry → Level
  | .evalReceived | .initReceived | .doneReceived | .expired _ | .frozen | .unfrozen => .info
  | .unexpectedEnd | .initNoArgument | .doneUnknown | .internalArgs _ | .failedArgs _
  | .unexpectedStatus _ _ => .warn
  | .rejectedFrozen _ | .rejectedHeaders _ | .rejectedHeader _ _ | .doneShort _
  | .doneMismatch _ _ _ => .err
  | .incoming _ | .saved | .added _ _ | .free _ | .reassigning _ _ | .notEnqueued _ | .waiting _
  | .sent _ _ | .statsRequested => .debug

/-- The text of each call, with the arguments put in. -/
def LogEntry.text : LogEntry → String
  | .evalReceived => "Received message 'eval' from clients"
  | .unexpectedEnd => "Unexpected end of message from frontend. Skipped."
  | .rejectedFrozen job => "Request '" ++ job ++ "' rejected. The broker is frozen."
  | .incoming job => " - incoming job " ++ job
  | .saved => " - saved to queue"
  | .rejectedHeaders job => "Request '" ++ job ++ "' rejected. No worker available for headers:"
  | .rejectedHeader name value => " - " ++ name ++ ": " ++ value
  | .initReceived => "Received message 'init' from workers"
  | .initNoArgument => "Init command without argument. Nothing to do."
  | .added worker headers => " - added new worker " ++ worker ++ " with headers: " ++ headers
  | .doneReceived => "Received message 'done' from workers"
  | .doneUnknown => "Got 'done' message from an unknown worker"
  | .doneShort worker => "Got 'done' message with not enough arguments from worker " ++ worker
  | .doneMismatch worker said current => "Got 'done' message from worker " ++ worker
      ++ " with mismatched job id - " ++ said ++ " (message) vs. " ++ current ++ " (worker)"
  | .internalArgs worker =>
      "Invalid number of arguments in a 'done' message with status 'INTERNAL_FAILURE' from worker "
      ++ worker
  | .failedArgs worker =>
      "Invalid number of arguments in a 'done' message with status 'FAILED' from worker " ++ worker
  | .unexpectedStatus status worker =>
      "Received unexpected status code " ++ status ++ " from worker " ++ worker
  | .free worker => " - worker " ++ worker ++ " is now free"
  | .expired worker => "Worker " ++ worker ++ " expired"
  | .reassigning job failures =>
      " - reassigning job " ++ job ++ " (" ++ natStr failures ++ " attempts already failed)"
  | .notEnqueued job => " - failed to enqueue job " ++ job
  | .waiting job => " - job " ++ job ++ " is now waiting in the queue"
  | .sent job worker => " - job " ++ job ++ " sent to worker " ++ worker
  | .statsRequested => "Client requested runtime statistics"
  | .frozen =>
      "The broker was frozen and will not accept any requests until it is restarted or unfrozen"
  | .unfrozen => "The broker was unfrozen and will now accept requests again"

/-! ## The handler with its logger -/

/-- State of the handler together with what it has written. -/
structure LState (Q : Type) where
  h : HState Q
  log : List LogEntry

/-- Computations of the handler that also write. -/
abbrev LM (Q : Type) := EStateM Err (LState Q)

section
variable {Q : Type}

/-- A part of the handler that contains no logging call. -/
def quiet {α : Type} (x : HM Q α) : LM Q α := fun s =>
  match x s.h with
  | .ok a h => .ok a { s with h := h }
  | .error e h => .error e { s with h := h }

/-- `logger_->debug(...)`, `logger_->info(...)` etc. on a logger with this level. -/
def write (lv : Level) (e : LogEntry) : LM Q Unit :=
  modify fun s => if lv.writes e.level then { s with log := s.log ++ [e] } else s

/-- `send_request` (src/handlers/broker_handler.cpp:483-487). -/
def sendRequestL (lv : Level) (w : Worker) (r : Req) : LM Q Unit := do
  quiet (sendRequest w r)
  write lv (.sent r.jobId w.getDescription)

@[inherit_doc sendIfSome]
def sendIfSomeL (lv : Level) (w : Worker) : Option Req → LM Q Unit
  | some r => sendRequestL lv w r
  | none => pure ()

variable [QueueManager Q]

/-- `reassign_request` (src/handlers/broker_handler.cpp:461-481). -/
def reassignRequestL (lv : Level) (env : Env) (r : Req) : LM Q Bool := do
  let s ← quiet get
  write lv (.reassigning r.jobId (s.fc r.rid))
  let res ← quiet (qEnqueue env r)
  if res.enqueued then
    match res.assignedTo with
    | some w => do sendRequestL lv w r; return true
    | none => do write lv (.waiting r.jobId); return true
  else do
    quiet (notifyMonitor r.jobId "FAILED")
    write lv (.notEnqueued r.jobId)
    return false

/-- The loop over the headers at src/handlers/broker_handler.cpp:167-170, the logging part. -/
def writeHeaders (lv : Level) : Headers → LM Q Unit
  | [] => pure ()
  | h :: t => do
    write lv (.rejectedHeader h.1 h.2)
    writeHeaders lv t

/-- `process_client_eval` from the creation of the request on
    (src/handlers/broker_handler.cpp:143-175). -/
def submitL (lv : Level) (env : Env) (identity jobId : String) (headers : Headers)
    (metadata : Metadata) (additional : List String) : LM Q Unit := do
  write lv (.incoming jobId)
  let s ← quiet get
  let r := Req.full s.nextRid headers metadata jobId additional
  quiet (set { s with nextRid := s.nextRid + 1, fc := upd s.fc s.nextRid 0 })
  let res ← quiet (qEnqueue env r)
  if res.enqueued then do
    match res.assignedTo with
    | some w => sendRequestL lv w r
    | none => write lv .saved
    quiet (respond keyClients identity ["accept"])
  else do
    write lv (.rejectedHeaders jobId)
    writeHeaders lv headers
    quiet (respond keyClients identity ["reject", rejectMessage headers])
    quiet (notifyMonitor jobId "FAILED")

/-- `process_client_eval` (src/handlers/broker_handler.cpp:86-175). -/
def processEvalL (lv : Level) (env : Env) (identity : String) (message : List String) :
    LM Q Unit := do
  write lv .evalReceived
  quiet (respond keyClients identity ["ack"])
  match message[1]? with
  | none => quiet (raise .outOfRange)
  | some jobId =>
    match evalHeaders (message.drop 2) [] [] with
    | .error u => quiet (undef u)
    | .ok none => write lv .unexpectedEnd
    | .ok (some (headers, metadata, additional)) => do
      let s ← quiet get
      if s.frozen then do
        quiet (respond keyClients identity ["reject", "The broker is frozen."])
        write lv (.rejectedFrozen jobId)
      else submitL lv env identity jobId headers metadata additional

/-- `process_client_get_runtime_stats` (src/handlers/broker_handler.cpp:517-535). -/
def processStatsL (lv : Level) (identity : String) : LM Q Unit := do
  write lv .statsRequested
  quiet (processStats identity)

/-- `process_client_freeze` (src/handlers/broker_handler.cpp:537-545). -/
def processFreezeL (lv : Level) (identity : String) : LM Q Unit := do
  quiet (modify fun s => { s with frozen := true })
  write lv .frozen
  quiet (respond keyClients identity ["ack"])

/-- `process_client_unfreeze` (src/handlers/broker_handler.cpp:547-555). -/
def processUnfreezeL (lv : Level) (identity : String) : LM Q Unit := do
  quiet (modify fun s => { s with frozen := false })
  write lv .unfrozen
  quiet (respond keyClients identity ["ack"])

/-- Client commands (src/handlers/broker_handler.cpp:23-41). -/
def clientCommandL (lv : Level) (env : Env) (command identity : String) (message : List String) :
    LM Q Unit :=
  if command = "eval" then processEvalL lv env identity message
  else if command = "get-runtime-stats" then processStatsL lv identity
  else if command = "freeze" then processFreezeL lv identity
  else if command = "unfreeze" then processUnfreezeL lv identity
  else pure ()

/-- The text made at src/handlers/broker_handler.cpp:255-256: every frame after the command, each
    followed by a blank. -/
def framesText : List String → String
  | [] => ""
  | f :: t => f ++ " " ++ framesText t

/-- `process_worker_init` from the construction of the worker on
    (src/handlers/broker_handler.cpp:222-258); `frames` are the frames after the command. -/
def registerWorkerL (lv : Level) (env : Env) (identity hwgroup : String) (headers : Headers)
    (extra frames : List String) : LM Q Unit := do
  let s ← quiet get
  let addr := env.alloc s.allocs s.addrs
  let (description, job) := initExtra extra "" none
  let w ← quiet (liftE (Worker.create addr identity hwgroup headers description))
  let cur := job.map (Req.incomplete s.nextRid)
  quiet (set { s with
    live := upd s.live addr 0, allocs := s.allocs + 1, fc := upd s.fc s.nextRid 0,
    nextRid := s.nextRid + 1, workers := s.workers ++ [w] })
  let req ← quiet (qAddWorker env w cur)
  sendIfSomeL lv w req
  quiet (modify fun s => { s with timers := s.timers.emplace w 0 })
  if lv.writes .debug then write lv (.added w.getDescription (framesText frames)) else pure ()

/-- `process_worker_init` (src/handlers/broker_handler.cpp:177-259). -/
def processInitL (lv : Level) (env : Env) (identity : String) (message : List String) :
    LM Q Unit := do
  write lv .initReceived
  match message with
  | _ :: hwgroup :: rest => do
    let (headers, extra) := initHeaders rest []
    let s ← quiet get
    match regFind identity s.workers with
    | some w =>
      if w.headersEqual headers then pure ()
      else do
        quiet (notifyError ("Received two different INIT messages from the same worker ("
          ++ w.getDescription ++ ")"))
        registerWorkerL lv env identity hwgroup headers extra (hwgroup :: rest)
    | none => registerWorkerL lv env identity hwgroup headers extra (hwgroup :: rest)
  | _ => write lv .initNoArgument

/-- Branch `OK` of `process_worker_done` (src/handlers/broker_handler.cpp:293-302). -/
def doneOkL (lv : Level) (env : Env) (w : Worker) (jobId : String) : LM Q Unit := do
  quiet (notifyDone jobId)
  let next ← quiet (qFinished env w)
  sendIfSomeL lv w next
  quiet countEvaluated

/-- Branch `INTERNAL_ERROR` of `process_worker_done` (src/handlers/broker_handler.cpp:311-326). -/
def doneInternalL (lv : Level) (cfg : HConfig) (env : Env) (w : Worker) (text : String) :
    LM Q Unit := do
  match ← quiet (qCancelled w) with
  | none => quiet (undef .nullDeref)
  | some r => do
    quiet (bumpCount r)
    if r.complete = false then
      quiet (notifyRejected r.jobId ("Job failed with '" ++ text ++ "' and cannot be reassigned"))
    else do
      if (← quiet (checkFailureCount cfg r text)) then do
        let _ ← reassignRequestL lv env r
        pure ()
      else do
        let next ← quiet (qAssign env w)
        sendIfSomeL lv w next
    quiet countFailed

/-- Branch `FAILED` of `process_worker_done` (src/handlers/broker_handler.cpp:334-344). -/
def doneFailedL (lv : Level) (env : Env) (w : Worker) (jobId text : String) : LM Q Unit := do
  quiet (notifyFailed jobId text)
  match ← quiet (qCancelled w) with
  | none => quiet (undef .nullDeref)
  | some r => do
    quiet (bumpCount r)
    let next ← quiet (qAssign env w)
    sendIfSomeL lv w next
    quiet countFailed

/-- The end of `process_worker_done` (src/handlers/broker_handler.cpp:349-351). -/
def reportFree (lv : Level) (w : Worker) : LM Q Unit := do
  match ← quiet (qCurrent w) with
  | none => write lv (.free w.getDescription)
  | some _ => pure ()

/-- `process_worker_done` (src/handlers/broker_handler.cpp:261-352). -/
def processDoneL (lv : Level) (cfg : HConfig) (env : Env) (identity : String)
    (message : List String) : LM Q Unit := do
  write lv .doneReceived
  let s ← quiet get
  match regFind identity s.workers with
  | none => write lv .doneUnknown
  | some w =>
    match message with
    | _ :: jobId :: status :: rest => do
      match ← quiet (qCurrent w) with
      | none => quiet (undef .nullDeref)
      | some current =>
        if jobId ≠ current.jobId then
          write lv (.doneMismatch w.getDescription jobId current.jobId)
        else if status = "OK" then do
          doneOkL lv env w jobId
          reportFree lv w
        else if status = "INTERNAL_ERROR" then
          match rest with
          | [text] => do
            doneInternalL lv cfg env w text
            reportFree lv w
          | _ => write lv (.internalArgs w.getDescription)
        else if status = "FAILED" then
          match rest with
          | [text] => do
            doneFailedL lv env w jobId text
            reportFree lv w
          | _ => write lv (.failedArgs w.getDescription)
        else do
          write lv (.unexpectedStatus status w.getDescription)
          reportFree lv w
    | _ => write lv (.doneShort w.getDescription)

/-- Worker commands (src/handlers/broker_handler.cpp:43-61). -/
def workerCommandL (lv : Level) (cfg : HConfig) (env : Env) (command identity : String)
    (message : List String) : LM Q Unit :=
  if command = "init" then processInitL lv env identity message
  else if command = "done" then processDoneL lv cfg env identity message
  else if command = "ping" then quiet (processPing identity)
  else if command = "progress" then quiet (processProgress message)
  else pure ()

/-- The loop over the requests of an expired worker (src/handlers/broker_handler.cpp:419-435). -/
def settleRequestsL (lv : Level) (cfg : HConfig) (env : Env) : List Req → LM Q (List Req)
  | [] => pure []
  | r :: rs =>
    if r.complete = false then do
      quiet (notifyRejected r.jobId timeoutMsg)
      quiet (notifyMonitor r.jobId "FAILED")
      settleRequestsL lv cfg env rs
    else do
      if (← quiet (checkFailureCount cfg r timeoutMsg)) then do
        if (← reassignRequestL lv env r) then do
          quiet (notifyMonitor r.jobId "ABORTED")
          settleRequestsL lv cfg env rs
        else do
          let rest ← settleRequestsL lv cfg env rs
          return r :: rest
      else settleRequestsL lv cfg env rs

/-- One round of the loop over expired workers (src/handlers/broker_handler.cpp:408-445). -/
def expireWorkerL (lv : Level) (cfg : HConfig) (env : Env) (w : Worker) : LM Q Unit := do
  write lv (.expired w.getDescription)
  quiet (modify fun s => { s with workers := regRemove w s.workers })
  match ← quiet (qCurrent w) with
  | some r => quiet (bumpCount r)
  | none => pure ()
  let requests ← quiet (qTerminated w)
  let unassigned ← settleRequestsL lv cfg env requests
  quiet (rejectAll ("Worker " ++ w.getDescription ++ " dieded") unassigned)

/-- The loop over expired workers (src/handlers/broker_handler.cpp:408-445). -/
def expireWorkersL (lv : Level) (cfg : HConfig) (env : Env) : List Worker → LM Q Unit
  | [] => pure ()
  | w :: ws => do
    expireWorkerL lv cfg env w
    expireWorkersL lv cfg env ws

/-- `process_timer` (src/handlers/broker_handler.cpp:383-459). -/
def processTimerL (lv : Level) (cfg : HConfig) (env : Env) (data : List String) : LM Q Unit := do
  match data with
  | [] => quiet (undef .pastEnd)
  | f :: _ => do
    let time ← quiet (liftE (stoll f))
    let s ← quiet get
    let toRemove ← quiet (tickWorkers cfg time s.workers)
    expireWorkersL lv cfg env toRemove
    quiet updateGauges

/-- `on_request` (src/handlers/broker_handler.cpp:64-84). -/
def onRequestL (lv : Level) (cfg : HConfig) (env : Env) (m : Msg) : LM Q Unit := do
  if m.key = keyWorkers then do
    quiet (touchWorker cfg m.identity)
    match m.data with
    | [] => quiet (raise .outOfRange)
    | command :: _ => workerCommandL lv cfg env command m.identity m.data
  else if m.key = keyClients then
    match m.data with
    | [] => quiet (raise .outOfRange)
    | command :: _ => clientCommandL lv env command m.identity m.data
  else if m.key = keyTimer then processTimerL lv cfg env m.data
  else pure ()

/-- Handling of one message by the broker handler with a logger of this level, starting with no
    output and an empty log. -/
def stepLog (lv : Level) (cfg : HConfig) (env : Env) (m : Msg) (s : HState Q) :
    EStateM.Result Err (LState Q) Unit :=
  onRequestL lv cfg env m ⟨{ s with outs := [] }, []⟩

end

end Broker
