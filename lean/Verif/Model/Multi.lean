import Verif.Model.Queue

/-!
# The multi-queue manager (src/queuing/multi_queue_manager.h, src/queuing/multi_queue_manager.cpp)
-/

namespace Broker

/-- Fields of `multi_queue_manager` (src/queuing/multi_queue_manager.h:13-15). -/
structure Multi where
  /-- `queues_` -/
  queues : WMap (List Req)
  /-- `current_requests_` -/
  current : WMap (Option Req)
  /-- `worker_queue_` -/
  ring : List Worker

namespace Multi

/-- `std::list::remove` (all elements equal to the pointer). -/
def listRemove (w : Worker) (l : List Worker) : List Worker := l.filter (fun x => x.addr ≠ w.addr)

/-- `add_worker` (src/queuing/multi_queue_manager.cpp:3-9). -/
def addWorker (q : Multi) (w : Worker) (cur : Option Req) : Option Req × Multi :=
  (none, { queues := q.queues.emplace w [], current := q.current.emplace w cur,
           ring := w :: q.ring })

/-- `worker_terminated` (src/queuing/multi_queue_manager.cpp:11-29). -/
def workerTerminated (q : Multi) (w : Worker) : List Req × Multi :=
  let cur := q.current.getD w none
  let queue := q.queues.getD w []
  (cur.toList ++ queue,
    { queues := q.queues.erase w, current := q.current.erase w, ring := listRemove w q.ring })

/-- The search loop of `enqueue_request` (src/queuing/multi_queue_manager.cpp:39-44). -/
def findWorker (headers : Headers) : List Worker → Except Exn (Option Worker)
  | [] => .ok none
  | w :: t => do
    if (← w.checkHeaders headers) then return some w else findWorker headers t

/-- `enqueue_request` (src/queuing/multi_queue_manager.cpp:31-65). -/
def enqueueRequest (q : Multi) (r : Req) : Except Exn (EnqResult × Multi) := do
  match ← findWorker r.headers q.ring with
  | none => return ({ assignedTo := none, enqueued := false }, q)
  | some w =>
    let ring := listRemove w q.ring ++ [w]
    match q.current.getD w none with
    | none =>
      return ({ assignedTo := some w, enqueued := true },
        { q with ring := ring, current := q.current.put w (some r) })
    | some _ =>
      return ({ assignedTo := none, enqueued := true },
        { q with ring := ring, queues := q.queues.put w (q.queues.getD w [] ++ [r]) })

/-- `assign_request` (src/queuing/multi_queue_manager.cpp:87-98).  `queues_[worker]` inserts an
    empty queue for an unknown worker. -/
def assignRequest (q : Multi) (w : Worker) : Option Req × Multi :=
  match q.queues.getD w [] with
  | [] => (none, { q with queues := q.queues.emplace w [] })
  | r :: t => (some r, { q with queues := q.queues.put w t, current := q.current.put w (some r) })

/-- `worker_finished` (src/queuing/multi_queue_manager.cpp:67-80). -/
def workerFinished (q : Multi) (w : Worker) : Option Req × Multi :=
  assignRequest { q with current := q.current.put w none } w

/-- `get_current_request` (src/queuing/multi_queue_manager.cpp:82-85). -/
def currentRequest (q : Multi) (w : Worker) : Option Req × Multi :=
  (q.current.getD w none, { q with current := q.current.emplace w none })

/-- `worker_cancelled` (src/queuing/multi_queue_manager.cpp:100-105). -/
def workerCancelled (q : Multi) (w : Worker) : Option Req × Multi :=
  (q.current.getD w none, { q with current := q.current.put w none })

/-- `get_queued_request_count` (src/queuing/multi_queue_manager.cpp:107-116).  The sum of queue
    lengths is assumed not to overflow `size_t`. -/
def queuedCount (q : Multi) : Nat := (q.queues.map (fun e => e.2.length)).sum

instance : QueueManager Multi where
  empty := { queues := [], current := [], ring := [] }
  addWorker _ q w cur := .ok (q.addWorker w cur)
  assignRequest _ q w := .ok (q.assignRequest w)
  workerTerminated q w := .ok (q.workerTerminated w)
  enqueueRequest q _ r := q.enqueueRequest r
  queuedCount := queuedCount
  currentRequest := currentRequest
  workerFinished _ q w := .ok (q.workerFinished w)
  workerCancelled := workerCancelled

end Multi
end Broker
