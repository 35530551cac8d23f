import Verif.Model.Worker

/-!
# The queue manager interface (src/queuing/queue_manager_interface.h) and the environment
-/

namespace Broker

/-! ## `std::map<worker_ptr, V>` -/

/-- `std::map<worker_ptr, V>`: ordered by the address of the worker object. -/
abbrev WMap (V : Type) := List (Worker × V)

namespace WMap
variable {V : Type}

/-- The value stored for a worker, if any. -/
def find (w : Worker) : WMap V → Option V
  | [] => none
  | (x, v) :: t => if x.addr = w.addr then some v else find w t

/-- `m[w] = v`. -/
def put (w : Worker) (v : V) : WMap V → WMap V
  | [] => [(w, v)]
  | (x, u) :: t =>
    if x.addr = w.addr then (x, v) :: t
    else if w.addr < x.addr then (w, v) :: (x, u) :: t else (x, u) :: put w v t

/-- `m.emplace(w, v)`: no effect when `w` is present.  Also the insertion done by reading `m[w]`,
    with `v` the value-initialised element. -/
def emplace (w : Worker) (v : V) : WMap V → WMap V
  | [] => [(w, v)]
  | (x, u) :: t =>
    if x.addr = w.addr then (x, u) :: t
    else if w.addr < x.addr then (w, v) :: (x, u) :: t else (x, u) :: emplace w v t

/-- `m.erase(w)`. -/
def erase (w : Worker) : WMap V → WMap V
  | [] => []
  | (x, u) :: t => if x.addr = w.addr then t else (x, u) :: erase w t

/-- The value of the expression `m[w]` (the insertion is modelled separately by `emplace`). -/
def getD (w : Worker) (d : V) (m : WMap V) : V := (m.find w).getD d

end WMap

/-! ## The environment -/

/-- A queued entry: `request_entry` (src/queuing/single_queue_manager.h:12-15); the time is
    `arrived_at` in milliseconds. -/
abbrev Entry := Req × Int

/-- A behaviour of `std::sort` with `fcfs_job_comparator` (src/queuing/single_queue_manager.h:17-22,
    93-95): some permutation that is sorted by arrival time.  `std::sort` is not stable, so nothing
    is assumed about entries with equal times. -/
structure Sorter where
  sort : List Entry → List Entry
  perm : ∀ l, (sort l).Perm l
  sorted : ∀ l, (sort l).Pairwise (fun a b => a.2 ≤ b.2)

/-- What the broker gets from outside besides messages: the memory allocator (addresses decide the
    order of `std::map<worker_ptr, …>`), the wall clock and the sorting algorithm. -/
structure Env where
  /-- Address of the `n`-th worker object, given the addresses in use. -/
  alloc : Nat → List Nat → Nat
  /-- The allocator never returns the address of an object that is still alive. -/
  alloc_fresh : ∀ n l, alloc n l ∉ l
  /-- The `n`-th reading of `std::chrono::system_clock` in milliseconds.  Nothing is assumed: the
      wall clock may jump. -/
  clock : Nat → Int
  srt : Sorter

/-! ## The interface -/

/-- `enqueue_result` (src/queuing/queue_manager_interface.h:13-23). -/
structure EnqResult where
  assignedTo : Option Worker
  enqueued : Bool

/-- `queue_manager_interface` (src/queuing/queue_manager_interface.h:25-90).  Operations that call
    `check_headers` can throw.  Since nothing catches the exception, the state it leaves behind is
    not modelled.  `now` is the clock reading an enqueue operation may use. -/
class QueueManager (Q : Type) where
  empty : Q
  addWorker : Sorter → Q → Worker → Option Req → Except Exn (Option Req × Q)
  assignRequest : Sorter → Q → Worker → Except Exn (Option Req × Q)
  workerTerminated : Q → Worker → Except Exn (List Req × Q)
  enqueueRequest : Q → (now : Int) → Req → Except Exn (EnqResult × Q)
  queuedCount : Q → Nat
  currentRequest : Q → Worker → Option Req × Q
  workerFinished : Sorter → Q → Worker → Except Exn (Option Req × Q)
  workerCancelled : Q → Worker → Option Req × Q

end Broker
