import Verif.Model.Queue

/-!
# The single-queue manager (src/queuing/single_queue_manager.h)

The class template is modelled for its default arguments `fcfs_job_comparator` and
`first_idle_worker_selector`, the only instantiation in the broker (src/broker_core.cpp:137).
-/

namespace Broker

/-- Fields of `single_queue_manager` (src/queuing/single_queue_manager.h:44-46). -/
structure Single where
  /-- `jobs_` -/
  jobs : List Entry
  /-- `worker_jobs_` -/
  current : WMap (Option Req)
  /-- `workers_` -/
  workers : List Worker

namespace Single

/-- `is_request_assignable` (src/queuing/single_queue_manager.h:53-61). -/
def isAssignable (r : Req) : List Worker → Except Exn Bool
  | [] => .ok false
  | w :: t => do
    if (← w.checkHeaders r.headers) then return true else isAssignable r t

/-- `first_idle_worker_selector::select` (src/queuing/single_queue_manager.h:25-36). -/
def select (r : Req) : WMap (Option Req) → Except Exn (Option Worker)
  | [] => .ok none
  | (w, cur) :: t =>
    match cur with
    | some _ => select r t
    | none => do
      if (← w.checkHeaders r.headers) then return some w else select r t

/-- The loop of `assign_request` (src/queuing/single_queue_manager.h:97-106): the first entry the
    worker can process, and the entries that remain. -/
def takeFirst (w : Worker) : List Entry → Except Exn (Option Req × List Entry)
  | [] => .ok (none, [])
  | e :: t => do
    if (← w.checkHeaders e.1.headers) then return (some e.1, t)
    else
      let (r, rest) ← takeFirst w t
      return (r, e :: rest)

/-- `assign_request` (src/queuing/single_queue_manager.h:90-109). -/
def assignRequest (srt : Sorter) (q : Single) (w : Worker) : Except Exn (Option Req × Single) := do
  let sorted := srt.sort q.jobs
  match ← takeFirst w sorted with
  | (some r, rest) =>
    return (some r, { q with jobs := rest, current := q.current.put w (some r) })
  | (none, _) =>
    return (none, { q with jobs := sorted, current := q.current.put w none })

/-- `add_worker` (src/queuing/single_queue_manager.h:78-88). -/
def addWorker (srt : Sorter) (q : Single) (w : Worker) (cur : Option Req) :
    Except Exn (Option Req × Single) :=
  let q' : Single := { q with current := q.current.put w cur, workers := q.workers ++ [w] }
  match cur with
  | some r => .ok (some r, q')
  | none => q'.assignRequest srt w

/-- The filtering loop of `worker_terminated` (src/queuing/single_queue_manager.h:121-131):
    jobs that no remaining worker can process, and the rest. -/
def splitJobs (ws : List Worker) : List Entry → Except Exn (List Req × List Entry)
  | [] => .ok ([], [])
  | e :: t => do
    let ok ← isAssignable e.1 ws
    let (out, keep) ← splitJobs ws t
    if ok then return (out, e :: keep) else return (e.1 :: out, keep)

/-- `worker_terminated` (src/queuing/single_queue_manager.h:111-134). -/
def workerTerminated (q : Single) (w : Worker) : Except Exn (List Req × Single) := do
  let cur := q.current.getD w none
  let ws := q.workers.filter (fun x => x.addr ≠ w.addr)
  let (out, keep) ← splitJobs ws q.jobs
  return (cur.toList ++ out, { jobs := keep, current := q.current.erase w, workers := ws })

/-- `enqueue_request` (src/queuing/single_queue_manager.h:136-164). -/
def enqueueRequest (q : Single) (now : Int) (r : Req) : Except Exn (EnqResult × Single) := do
  match ← select r q.current with
  | some w =>
    return ({ assignedTo := some w, enqueued := true },
      { q with current := q.current.put w (some r) })
  | none =>
    if (← isAssignable r q.workers) then
      return ({ assignedTo := none, enqueued := true }, { q with jobs := q.jobs ++ [(r, now)] })
    else return ({ assignedTo := none, enqueued := false }, q)

/-- `get_current_request` (src/queuing/single_queue_manager.h:171-174). -/
def currentRequest (q : Single) (w : Worker) : Option Req × Single :=
  (q.current.getD w none, { q with current := q.current.emplace w none })

/-- `worker_cancelled` (src/queuing/single_queue_manager.h:181-186). -/
def workerCancelled (q : Single) (w : Worker) : Option Req × Single :=
  (q.current.getD w none, { q with current := q.current.put w none })

instance : QueueManager Single where
  empty := { jobs := [], current := [], workers := [] }
  addWorker := addWorker
  assignRequest := assignRequest
  workerTerminated := workerTerminated
  enqueueRequest := enqueueRequest
  -- `get_queued_request_count` (src/queuing/single_queue_manager.h:166-169)
  queuedCount q := q.jobs.length
  currentRequest := currentRequest
  -- `worker_finished` (src/queuing/single_queue_manager.h:176-179)
  workerFinished := assignRequest
  workerCancelled := workerCancelled

end Single
end Broker
