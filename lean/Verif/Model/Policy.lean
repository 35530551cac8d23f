import Verif.Model.Single

/-!
# The single-queue manager as a template (src/queuing/single_queue_manager.h:38-187)

`Model/Single.lean` is the class with its default arguments, the only ones the broker uses.  Here it
is with any comparator and any selector.
-/

namespace Broker

/-- The template arguments `JobComparator` and `IdleWorkerSelector`
    (src/queuing/single_queue_manager.h:38-39). -/
structure Policy where
  /-- `comparator_->compare(a, b, worker)` (src/queuing/single_queue_manager.h:94) -/
  before : Worker → Entry → Entry → Bool
  /-- what `std::sort` makes of the jobs with this comparator
      (src/queuing/single_queue_manager.h:93-95); `Sorter` is the environment's algorithm for the
      default comparator -/
  order : Sorter → Worker → List Entry → List Entry
  /-- `selector_->select(worker_jobs_, jobs_, request)` (src/queuing/single_queue_manager.h:139); null
      is `none` -/
  select : WMap (Option Req) → List Entry → Req → Except Exn (Option Worker)

/-- `fcfs_job_comparator` and `first_idle_worker_selector`
    (src/queuing/single_queue_manager.h:17-36). -/
def Policy.default : Policy where
  before _ a b := decide (a.2 < b.2)
  order srt _ l := srt.sort l
  select m _ r := Single.select r m

/-- `single_queue_manager<JobComparator, IdleWorkerSelector>`; it has the same fields for all
    arguments (src/queuing/single_queue_manager.h:42-46). -/
def SingleOf (_ : Policy) : Type := Single

namespace SingleOf

/-- `assign_request` (src/queuing/single_queue_manager.h:90-109). -/
def assignRequest (π : Policy) (srt : Sorter) (q : Single) (w : Worker) :
    Except Exn (Option Req × Single) := do
  let sorted := π.order srt w q.jobs
  match ← Single.takeFirst w sorted with
  | (some r, rest) =>
    return (some r, { q with jobs := rest, current := q.current.put w (some r) })
  | (none, _) =>
    return (none, { q with jobs := sorted, current := q.current.put w none })

/-- `add_worker` (src/queuing/single_queue_manager.h:78-88). -/
def addWorker (π : Policy) (srt : Sorter) (q : Single) (w : Worker) (cur : Option Req) :
    Except Exn (Option Req × Single) :=
  let q' : Single := { q with current := q.current.put w cur, workers := q.workers ++ [w] }
  match cur with
  | some r => .ok (some r, q')
  | none => assignRequest π srt q' w

/-- `enqueue_request` (src/queuing/single_queue_manager.h:136-164). -/
def enqueueRequest (π : Policy) (q : Single) (now : Int) (r : Req) :
    Except Exn (EnqResult × Single) := do
  match ← π.select q.current q.jobs r with
  | some w =>
    return ({ assignedTo := some w, enqueued := true },
      { q with current := q.current.put w (some r) })
  | none =>
    if (← Single.isAssignable r q.workers) then
      return ({ assignedTo := none, enqueued := true }, { q with jobs := q.jobs ++ [(r, now)] })
    else return ({ assignedTo := none, enqueued := false }, q)

/-- The other functions do not depend on the arguments (src/queuing/single_queue_manager.h:111-134,
    166-186). -/
instance (π : Policy) : QueueManager (SingleOf π) where
  empty := (QueueManager.empty : Single)
  addWorker srt (q : Single) w cur := addWorker π srt q w cur
  assignRequest srt (q : Single) w := assignRequest π srt q w
  workerTerminated (q : Single) w := q.workerTerminated w
  enqueueRequest (q : Single) now r := enqueueRequest π q now r
  queuedCount (q : Single) := q.jobs.length
  currentRequest (q : Single) w := q.currentRequest w
  workerFinished srt (q : Single) w := assignRequest π srt q w
  workerCancelled (q : Single) w := q.workerCancelled w

end SingleOf
end Broker
