import Verif.Model.Single
import Verif.Model.Multi
import Verif.Spec.Exec

/-!
# The project's own tests of workers, registry and queue managers, run on the model

Not proofs but a check of the reading of the code that the model is: every test in
tests/worker.cpp, tests/worker_registry.cpp, tests/multi_queue_manager.cpp and
tests/single_queue_manager.cpp, with its assertions, evaluated in the model.  The tests do not fix the
addresses of the objects, so those with two workers are run for both orders.
-/

namespace Broker.Tests

/-- `worker(identity, hwgroup, headers)` at an address. -/
def mk (addr : Nat) (identity hwgroup : String) (headers : Headers) : Worker :=
  match Worker.create addr identity hwgroup headers "" with
  | .ok w => w
  | .error _ => ⟨addr, "", "", [], [], ""⟩

/-- `request(headers, {}, job_request_data("", {}))`. -/
def rq (n : Nat) (headers : Headers := []) : Req := Req.full n headers [] "" []

/-! ## tests/worker.cpp -/

/-- headers_basic (lines 8-21) -/
example : ([("env", "c"), ("threads", "8"), ("hwgroup", "group_1"), ("hwgroup", "group_2"),
      ("time_measurement", "extra_precise"), ("threads", "10")].map fun h =>
    (mk 1 "identity1" "group_1" [("env", "c"), ("threads", "8")]).checkHeader h.1 h.2 |>.toOption) =
    [some true, some true, some true, some false, some false, some false] := by decide +kernel

/-- worker_headers_threads (lines 23-34) -/
example : (["8", "7", "1", "10"].map fun v =>
    (mk 1 "identity1" "group_1" [("threads", "8")]).checkHeader "threads" v |>.toOption) =
    [some true, some true, some true, some false] := by decide +kernel

/-- worker_headers_hwgroup (lines 36-51) -/
example : (["group_1", "group_1|group_2|group_3", "group_2|group_1|group_3", "group_2|group_3|group_1",
      "group_2|group_3|group_4", "", "group_4", "group_4||group_3"].map fun v =>
    (mk 1 "identity1" "group_1" []).checkHeader "hwgroup" v |>.toOption) =
    [some true, some true, some true, some true, some false, some false, some false, some false] := by
  decide +kernel

/-- worker_headers_equal (lines 53-61) -/
example : (mk 1 "identity1" "group_1" [("threads", "8")]).headersEqual [("threads", "8")] = true := by
  decide +kernel

/-- description (lines 63-74) -/
example : (mk 1 "identity1" "group_1" [("threads", "8")]).getDescription = "6964656e7469747931" ∧
    ({ mk 1 "identity1" "group_1" [("threads", "8")] with description := "MyWorker" } :
      Worker).getDescription = "6964656e7469747931 (MyWorker)" := by decide +kernel

/-! ## tests/worker_registry.cpp -/

/-- basic_lookup (lines 8-29) -/
example :
    let w1 := mk 1 "id1234" "group_1" [("env", "python"), ("env", "c")]
    let w2 := mk 2 "id12345" "group_2" [("env", "c")]
    (regFindHeaders [("env", "python")] [w1, w2] |>.toOption) = some (some w1) ∧
    (regFindHeaders [("hwgroup", "group_2")] [w1, w2] |>.toOption) = some (some w2) ∧
    (regFindHeaders [("env", "python"), ("hwgroup", "group_2")] [w1, w2] |>.toOption) = some none := by
  decide +kernel

/-! ## tests/multi_queue_manager.cpp and tests/single_queue_manager.cpp -/

section
variable (Q : Type) [QueueManager Q]

open QueueManager

/-- The current request of a worker. -/
def cur {Q : Type} [QueueManager Q] (q : Q) (w : Worker) : Option Req := (currentRequest q w).1

/-- add_worker (lines 11-23) -/
def addWorkerTest : Except Exn Bool := do
  let w := mk 1 "identity1" "group_1" []
  let (_, q) ← addWorker insSorter (empty : Q) w (some (rq 1))
  return cur q w = some (rq 1)

/-- basic_queueing (lines 25-55) -/
def basicQueueing : Except Exn Bool := do
  let w := mk 1 "identity1" "group_1" []
  let (_, q) ← addWorker insSorter (empty : Q) w none
  let (r1, q1) ← enqueueRequest q 1 (rq 1)
  let (r2, q2) ← enqueueRequest q1 2 (rq 2)
  let (n3, q3) ← workerFinished insSorter q2 w
  let (n4, q4) ← workerFinished insSorter q3 w
  return r1.assignedTo = some w && r1.enqueued && cur q1 w = some (rq 1) &&
    r2.enqueued && r2.assignedTo = none && cur q2 w = some (rq 1) &&
    n3 = some (rq 2) && cur q3 w = some (rq 2) && n4 = none && cur q4 w = none

/-- terminate_basic (lines 57-78) -/
def terminateBasic : Except Exn Bool := do
  let w := mk 1 "identity1" "group_1" []
  let (_, q) ← addWorker insSorter (empty : Q) w none
  let (_, q) ← enqueueRequest q 1 (rq 1)
  let (_, q) ← enqueueRequest q 2 (rq 2)
  let (l, q) ← workerTerminated q w
  let (r, _) ← enqueueRequest q 3 (rq 3)
  return l = [rq 1, rq 2] && !r.enqueued

/-- terminate_no_current (lines 80-97; single: 80-106) -/
def terminateNoCurrent : Except Exn Bool := do
  let w := mk 1 "identity1" "group_1" []
  let (a, q) ← addWorker insSorter (empty : Q) w none
  let (r1, q) ← enqueueRequest q 1 (rq 1)
  let (r2, q) ← enqueueRequest q 2 (rq 2)
  let (c, q) := workerCancelled q w
  let (l, _) ← workerTerminated q w
  return a = none && r1.assignedTo = some w && r1.enqueued && r2.assignedTo = none && r2.enqueued &&
    c = some (rq 1) && l = [rq 2]

/-- terminate_empty (lines 99-114; single: 108-123) -/
def terminateEmpty : Except Exn Bool := do
  let w := mk 1 "identity1" "group_1" []
  let (_, q) ← addWorker insSorter (empty : Q) w none
  let (_, q) ← enqueueRequest q 1 (rq 1)
  let (_, q) ← workerFinished insSorter q w
  let (l, _) ← workerTerminated q w
  return cur q w = none && l = []

/-- load_balancing (lines 116-140; single: 125-149) -/
def loadBalancing (a b : Nat) : Except Exn Bool := do
  let w1 := mk a "id1234" "group_1" [("env", "c")]
  let w2 := mk b "id12345" "group_1" [("env", "c")]
  let (_, q) ← addWorker insSorter (empty : Q) w1 none
  let (_, q) ← addWorker insSorter q w2 none
  let (r1, q) ← enqueueRequest q 1 (rq 1 [("env", "c")])
  let (r2, _) ← enqueueRequest q 2 (rq 2 [("env", "c")])
  return r1.enqueued && r2.enqueued && r1.assignedTo.isSome && r2.assignedTo.isSome &&
    r1.assignedTo ≠ r2.assignedTo

end

/-- Tests of tests/multi_queue_manager.cpp. -/
example : [addWorkerTest Multi, basicQueueing Multi, terminateBasic Multi, terminateNoCurrent Multi,
    terminateEmpty Multi, loadBalancing Multi 1 2, loadBalancing Multi 2 1].map (·.toOption) =
    List.replicate 7 (some true) := by decide +kernel

/-- The same tests in tests/single_queue_manager.cpp. -/
example : [addWorkerTest Single, basicQueueing Single, terminateBasic Single,
    terminateNoCurrent Single, terminateEmpty Single, loadBalancing Single 1 2,
    loadBalancing Single 2 1].map (·.toOption) = List.replicate 7 (some true) := by decide +kernel

/-- rejecting_unprocessable_jobs (tests/single_queue_manager.cpp, lines 151-190) -/
def rejectingUnprocessable (a b : Nat) : Except Exn Bool := do
  let w1 := mk a "id1234" "group_1" [("env", "c")]
  let w2 := mk b "id12345" "group_2" [("env", "c")]
  let h1 : Headers := [("env", "c"), ("hwgroup", "group_1")]
  let h2 : Headers := [("env", "c"), ("hwgroup", "group_2")]
  let (_, q) ← QueueManager.addWorker insSorter (QueueManager.empty : Single) w1 none
  let (_, q) ← QueueManager.addWorker insSorter q w2 none
  let (r21, q) ← QueueManager.enqueueRequest q 1 (rq 21 h2)
  let (r11, q) ← QueueManager.enqueueRequest q 2 (rq 11 h1)
  let (r12, q) ← QueueManager.enqueueRequest q 3 (rq 12 h1)
  let (r22, q) ← QueueManager.enqueueRequest q 4 (rq 22 h2)
  let (l, q) ← QueueManager.workerTerminated q w1
  let (re, _) ← QueueManager.enqueueRequest q 5 (rq 11 h1)
  return r11.enqueued && r12.enqueued && r21.enqueued && r22.enqueued &&
    r11.assignedTo = some w1 && r12.assignedTo = none && r21.assignedTo = some w2 &&
    r22.assignedTo = none && l = [rq 11 h1, rq 12 h1] && !re.enqueued && re.assignedTo = none

example : (rejectingUnprocessable 1 2).toOption = some true ∧
    (rejectingUnprocessable 2 1).toOption = some true := by
  decide +kernel

end Broker.Tests
