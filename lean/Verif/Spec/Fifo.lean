import Verif.Model.Single

/-!
# A queue manager without a clock

One list of waiting requests in the order in which they came.  There are no arrival times and
nothing is ever sorted.
-/

namespace Broker

/-- The waiting requests in order of arrival, what each worker does, and the workers. -/
structure Fifo where
  waiting : List Req
  current : WMap (Option Req)
  workers : List Worker

namespace Fifo

/-- Can one of the workers process the request? -/
def assignable (r : Req) : List Worker → Except Exn Bool
  | [] => .ok false
  | w :: ws => do
    if (← w.checkHeaders r.headers) then return true else assignable r ws

/-- The first idle worker (by address) that can process the request. -/
def idle (r : Req) : WMap (Option Req) → Except Exn (Option Worker)
  | [] => .ok none
  | (_, some _) :: t => idle r t
  | (w, none) :: t => do
    if (← w.checkHeaders r.headers) then return some w else idle r t

/-- The oldest waiting request that the worker can process, and the others. -/
def oldest (w : Worker) : List Req → Except Exn (Option Req × List Req)
  | [] => .ok (none, [])
  | r :: rs => do
    if (← w.checkHeaders r.headers) then return (some r, rs)
    else
      let (x, rest) ← oldest w rs
      return (x, r :: rest)

/-- The waiting requests that nobody can process, and the others. -/
def orphans (ws : List Worker) : List Req → Except Exn (List Req × List Req)
  | [] => .ok ([], [])
  | r :: rs => do
    let ok ← assignable r ws
    let (out, keep) ← orphans ws rs
    if ok then return (out, r :: keep) else return (r :: out, keep)

/-- The worker starts with the oldest request it can process, if there is one. -/
def next (q : Fifo) (w : Worker) : Except Exn (Option Req × Fifo) := do
  let (r, rest) ← oldest w q.waiting
  return (r, { q with waiting := rest, current := q.current.put w r })

/-- A new request: to an idle worker, or to the end of the list, or to nobody. -/
def submit (q : Fifo) (r : Req) : Except Exn (EnqResult × Fifo) := do
  match ← idle r q.current with
  | some w => return (⟨some w, true⟩, { q with current := q.current.put w (some r) })
  | none =>
    if (← assignable r q.workers) then
      return (⟨none, true⟩, { q with waiting := q.waiting ++ [r] })
    else return (⟨none, false⟩, q)

/-- A worker goes away. -/
def remove (q : Fifo) (w : Worker) : Except Exn (List Req × Fifo) := do
  let ws := q.workers.filter (fun x => x.addr ≠ w.addr)
  let (out, keep) ← orphans ws q.waiting
  return ((q.current.getD w none).toList ++ out, ⟨keep, q.current.erase w, ws⟩)

/-- A worker comes, possibly with a request it works on. -/
def add (q : Fifo) (w : Worker) (cur : Option Req) : Except Exn (Option Req × Fifo) :=
  let q' : Fifo := { q with current := q.current.put w cur, workers := q.workers ++ [w] }
  match cur with
  | some r => .ok (some r, q')
  | none => q'.next w

instance : QueueManager Fifo where
  empty := ⟨[], [], []⟩
  addWorker _ := add
  assignRequest _ := next
  workerTerminated := remove
  enqueueRequest q _ r := q.submit r
  queuedCount q := q.waiting.length
  currentRequest q w := (q.current.getD w none, { q with current := q.current.emplace w none })
  workerFinished _ := next
  workerCancelled q w := (q.current.getD w none, { q with current := q.current.put w none })

end Fifo
end Broker
