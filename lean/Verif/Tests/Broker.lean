import Verif.Tests.Queues
import Verif.Model.Config

/-!
# The project's own tests of the broker handler, run on the model

Every test in tests/broker.cpp.  The tests put workers and requests into the registry and into the
queue manager before they make the handler; the states here are made in the same way.  Where the test
compares up to the order of the messages (`UnorderedElementsAre`), the comparison here is with the
order of the model.
-/

namespace Broker.Tests

open QueueManager

/-- `mock_broker_config` (tests/mocks.h:19-52): ping interval one second, 9999 failures; the liveness
    is the default one. -/
def mockCfg (failures : Nat := 9999) (h : failures < SZ := by decide) : HConfig :=
  { cfg0 with maxFailures := failures, maxFailures_lt := h }

/-- The worker most tests begin with. -/
def worker1 : Worker := mk 1 "identity_1" "group_1" [("env", "c")]

/-- The second worker. -/
def worker2 : Worker := mk 2 "identity_2" "group_1" [("env", "c")]

/-- `request({{"env", "c"}}, {}, job_request_data(job_id, data))`. -/
def job (n : Nat) (jobId : String) (data : List String := []) : Req :=
  Req.full n [("env", "c")] [] jobId data

/-- Queues with these workers and their current requests. -/
def queuesOf : List (Worker × Option Req) → Multi
  | [] => empty
  | l => l.foldl (fun q p => (Multi.addWorker q p.1 p.2).2) empty

/-- The state before the test: registry, queues, liveness of the first and the second worker. -/
def before (workers : List Worker) (queue : Multi) (live1 live2 : Nat := 0) : HState Multi :=
  { HState.init Multi with
    workers := workers
    queue := queue
    live := fun a => if a = 1 then live1 else if a = 2 then live2 else 0
    nextRid := 10 }

/-- The messages a handler emits for a message, and the state after it. -/
def handle (m : Msg) (s : HState Multi) (cfg : HConfig := mockCfg) : Option (List Msg × HState Multi) :=
  match step cfg env0 m s with
  | .ok _ s' => some (s'.outs, s')
  | .error _ _ => none

/-- The messages emitted for one message after the other. -/
def handleAll (cfg : HConfig) : List Msg → HState Multi → Option (List (List Msg))
  | [], _ => some []
  | m :: t, s => do
    let (o, s') ← handle m s cfg
    return o :: (← handleAll cfg t s')

def toWorker (identity : String) (data : List String) : Msg := ⟨"workers", identity, data⟩
def toClient (identity : String) (data : List String) : Msg := ⟨"clients", identity, data⟩
def toMonitor (data : List String) : Msg := ⟨"monitor", "recodex-monitor", data⟩
def toFrontend (data : List String) : Msg := ⟨"status_notifier", "", data⟩

/-- worker_init (lines 31-62) -/
example : (handle (fromW "identity1" ["init", "group_1", "env=c", "threads=8"])
      (before [] empty)).any (fun (o, s) =>
    s.workers.length == 1 && o.isEmpty &&
    (regFind "identity1" s.workers).any (fun w => w.identity == "identity1" && w.hwgroup == "group_1" &&
      (w.checkHeader "env" "c").toOption == some true &&
      (w.checkHeader "threads" "8").toOption == some true)) = true := by decide +kernel

/-- worker_init_additional_info (lines 64-102) -/
example : (handle (fromW "identity1" ["init", "group_1", "env=c", "threads=8", "",
      "description=MyWorker", "current_job=job_42"]) (before [] empty)).any (fun (o, s) =>
    s.workers.length == 1 && o.isEmpty &&
    (regFind "identity1" s.workers).any (fun w => w.identity == "identity1" && w.hwgroup == "group_1" &&
      (w.checkHeader "env" "c").toOption == some true &&
      (w.checkHeader "threads" "8").toOption == some true && w.description == "MyWorker" &&
      (cur s.queue w).any (fun r => r.jobId == "job_42" && !r.complete))) = true := by decide +kernel

/-- worker_repeated_init_same_headers (lines 104-136) -/
example : (handle (fromW "identity_1" ["init", "group_1", "env=c"])
      (before [worker1] empty)).any (fun (o, s) =>
    s.workers.length == 1 && o.isEmpty &&
    (regFind "identity_1" s.workers).any (fun w => w.identity == "identity_1" &&
      w.hwgroup == "group_1" && (w.checkHeader "env" "c").toOption == some true)) = true := by
  decide +kernel

/-- queuing (lines 138-194) -/
example : handleAll mockCfg [fromC "client_foo" ["eval", "job1", "env=c", "", "1", "2"],
      fromC "client_foo" ["eval", "job2", "env=c", "", "1", "2"],
      fromW "identity_1" ["done", "job1", "OK"]] (before [worker1] (queuesOf [(worker1, none)])) =
    some [[toClient "client_foo" ["ack"], toWorker "identity_1" ["eval", "job1", "1", "2"],
        toClient "client_foo" ["accept"]],
      [toClient "client_foo" ["ack"], toClient "client_foo" ["accept"]],
      [toFrontend ["type", "job-status", "id", "job1", "status", "OK"],
        toWorker "identity_1" ["eval", "job2", "1", "2"]]] := by decide +kernel

/-- request_metadata (lines 208-246) -/
example : (handle (fromC "client_foo" ["eval", "job1", "env=c", "meta.user_id=user_asdf",
      "meta.exercise_id=exercise_asdf", "", "1", "2"])
      (before [worker1] (queuesOf [(worker1, none)]))).any (fun (o, s) =>
    o == [toClient "client_foo" ["ack"], toWorker "identity_1" ["eval", "job1", "1", "2"],
      toClient "client_foo" ["accept"]] &&
    (cur s.queue worker1).any (fun r =>
      r.metadata == [("exercise_id", "exercise_asdf"), ("user_id", "user_asdf")])) = true := by
  decide +kernel

/-- freeze (lines 248-300) -/
example : handleAll mockCfg [fromC "client_foo" ["eval", "job1", "env=c", "", "1", "2"],
      fromC "client_foo" ["freeze"], fromC "client_foo" ["eval", "job2", "env=c", "", "1", "2"]]
      (before [worker1] (queuesOf [(worker1, none)])) =
    some [[toClient "client_foo" ["ack"], toWorker "identity_1" ["eval", "job1", "1", "2"],
        toClient "client_foo" ["accept"]],
      [toClient "client_foo" ["ack"]],
      [toClient "client_foo" ["ack"], toClient "client_foo" ["reject", "The broker is frozen."]]] := by
  decide +kernel

/-- ping_unknown_worker (lines 302-324) -/
example : handleAll mockCfg [fromW "identity_1" ["ping"]] (before [] empty) =
    some [[toWorker "identity_1" ["intro"]]] := by decide +kernel

/-- ping_known_worker (lines 326-350) -/
example : handleAll mockCfg [fromW "identity_1" ["ping"]] (before [worker1] empty) =
    some [[toWorker "identity_1" ["pong"]]] := by decide +kernel

/-- worker_expiration (lines 352-391) -/
example : handleAll mockCfg [tick "1100"]
      (before [worker1] (queuesOf [(worker1, some (job 1 "job_id"))]) 1) =
    some [[toMonitor ["job_id", "FAILED"], toFrontend ["type", "job-status", "id", "job_id", "status",
      "FAILED", "message", "Worker " ++ worker1.getDescription ++ " dieded"]]] := by decide +kernel

/-- worker_expiration_no_job (lines 393-418) -/
example : handleAll mockCfg [tick "1100"] (before [worker1] empty 1) = some [[]] := by decide +kernel

/-- worker_state_message (lines 420-448) -/
example : handleAll mockCfg [fromW "identity_1" ["progress", "arg1", "arg2"]]
      (before [worker1] (queuesOf [(worker1, some (job 1 "job_id"))]) 1) =
    some [[toMonitor ["arg1", "arg2"]]] := by decide +kernel

/-- worker_job_failed (lines 450-484) -/
example : handleAll mockCfg [fromW "identity_1" ["done", "job_id", "FAILED", "Testing failure"]]
      (before [worker1] (queuesOf [(worker1, some (job 1 "job_id"))]) 1) =
    some [[toFrontend ["type", "job-status", "id", "job_id", "status", "FAILED", "message",
      "Testing failure"]]] := by decide +kernel

/-- worker_job_failed_queueing (lines 486-534) -/
example : (do
      let q := queuesOf [(worker1, none)]
      let (_, q) ← (Multi.enqueueRequest q (job 1 "job_id_1")).toOption
      let (_, q) ← (Multi.enqueueRequest q (job 2 "job_id_2")).toOption
      handleAll mockCfg [fromW "identity_1" ["done", "job_id_1", "FAILED", "Testing failure"]]
        (before [worker1] q 1)) =
    some [[toFrontend ["type", "job-status", "id", "job_id_1", "status", "FAILED", "message",
      "Testing failure"], toWorker "identity_1" ["eval", "job_id_2"]]] := by decide +kernel

/-- worker_job_done (lines 536-567) -/
example : handleAll mockCfg [fromW "identity_1" ["done", "job_id", "OK", ""]]
      (before [worker1] (queuesOf [(worker1, some (job 1 "job_id"))]) 1) =
    some [[toFrontend ["type", "job-status", "id", "job_id", "status", "OK"]]] := by decide +kernel

/-- worker_orphan_job_done (lines 569-599) -/
example : handleAll mockCfg [fromW "identity_1" ["done", "job_id", "OK", ""]]
      (before [worker1] (queuesOf [(worker1, some (Req.incomplete 1 "job_id"))]) 1) =
    some [[toFrontend ["type", "job-status", "id", "job_id", "status", "OK"]]] := by decide +kernel

/-- worker_job_internal_failure (lines 601-639) -/
example : (handle (fromW "identity_1" ["done", "job_id", "INTERNAL_ERROR", "Blabla"])
      (before [worker1] (queuesOf [(worker1, some (job 1 "job_id"))]) 1) (mockCfg 10)).any
    (fun (o, s) => o == [toWorker "identity_1" ["eval", "job_id"]] && s.fc 1 == 1) = true := by
  decide +kernel

/-- worker_orphan_job_internal_failure (lines 641-684) -/
example : handleAll (mockCfg 10) [fromW "identity_1" ["done", "job_id", "INTERNAL_ERROR",
      "Testing failure"]] (before [worker1] (queuesOf [(worker1, some (Req.incomplete 1 "job_id"))]) 1) =
    some [[toFrontend ["type", "job-status", "id", "job_id", "status", "FAILED", "message",
      "Job failed with 'Testing failure' and cannot be reassigned"]]] := by decide +kernel

/-- worker_expiration_reassign_job (lines 686-724) -/
example : (handle (tick "1100") (before [worker1, worker2]
      (queuesOf [(worker1, some (job 1 "job_id" ["whatever"])), (worker2, none)]) 1 100)).any
    (fun (o, s) => o == [toWorker "identity_2" ["eval", "job_id", "whatever"],
      toMonitor ["job_id", "ABORTED"]] && s.fc 1 == 1) = true := by decide +kernel

/-- worker_expiration_dont_reassign_orphan_job (lines 726-770) -/
example : handleAll mockCfg [tick "1100"] (before [worker1, worker2]
      (queuesOf [(worker1, some (Req.incomplete 1 "job_id")), (worker2, none)]) 1 100) =
    some [[toFrontend ["type", "job-status", "id", "job_id", "status", "FAILED", "message",
      "Worker timed out and its job cannot be reassigned"], toMonitor ["job_id", "FAILED"]]] := by
  decide +kernel

/-- worker_expiration_cancel_job (lines 772-820) -/
example : handleAll (mockCfg 1) [tick "1100"] { before [worker1, worker2]
      (queuesOf [(worker1, some (job 1 "job_id" ["whatever"])), (worker2, none)]) 1 100 with
        fc := fun n => if n = 1 then 1 else 0 } =
    some [[toFrontend ["type", "job-status", "id", "job_id", "status", "FAILED", "message",
      "Job was reassigned too many (1) times. Last failure message was: Worker timed out " ++
      "and its job cannot be reassigned"], toMonitor ["job_id", "FAILED"]]] := by decide +kernel

end Broker.Tests
