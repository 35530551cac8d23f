import Verif.Model.Multi

/-!
# A queue manager with one line of promises

The workers take turns.  A request is promised to the first of them that can process it; if the
worker is busy, the request waits in one line with the promises to all workers.
-/

namespace Broker

/-- The workers in the order of their turns, what each known worker does, and the line of requests
    with the (address of the) worker each of them was promised to. -/
structure Rota where
  turns : List Worker
  doing : Nat → Option (Option Req)
  line : List (Nat × Req)

namespace Rota

/-- The first worker that can process the request. -/
def first (r : Req) : List Worker → Except Exn (Option Worker)
  | [] => .ok none
  | w :: ws => do
    if (← w.checkHeaders r.headers) then return some w else first r ws

/-- What the worker does. -/
def job (q : Rota) (w : Worker) : Option Req := (q.doing w.addr).getD none

/-- The worker does this from now on. -/
def give (q : Rota) (w : Worker) (r : Option Req) : Rota :=
  { q with doing := fun a => if a = w.addr then some r else q.doing a }

/-- The worker does this from now on, unless it is known to do something or nothing already. -/
def know (q : Rota) (w : Worker) (r : Option Req) : Rota :=
  if q.doing w.addr = none then q.give w r else q

/-- The first request in line that was promised to the worker, and the line without it. -/
def pop (a : Nat) : List (Nat × Req) → Option (Req × List (Nat × Req))
  | [] => none
  | p :: t => if p.1 = a then some (p.2, t) else (pop a t).map fun x => (x.1, p :: x.2)

/-- The worker starts with the next request promised to it, if there is one. -/
def next (q : Rota) (w : Worker) : Option Req × Rota :=
  match pop w.addr q.line with
  | none => (none, q)
  | some (r, line) => (some r, { q with line := line }.give w (some r))

/-- A new request: promised to the first worker that can process it, whose turn is over then. -/
def submit (q : Rota) (r : Req) : Except Exn (EnqResult × Rota) := do
  match ← first r q.turns with
  | none => return (⟨none, false⟩, q)
  | some w =>
    let q : Rota := { q with turns := q.turns.filter (fun x => x.addr ≠ w.addr) ++ [w] }
    match q.job w with
    | none => return (⟨some w, true⟩, q.give w (some r))
    | some _ => return (⟨none, true⟩, { q with line := q.line ++ [(w.addr, r)] })

/-- A worker goes away: what it does and what was promised to it. -/
def remove (q : Rota) (w : Worker) : List Req × Rota :=
  ((q.job w).toList ++ (q.line.filter fun p => p.1 = w.addr).map (·.2),
    { turns := q.turns.filter (fun x => x.addr ≠ w.addr)
      doing := fun a => if a = w.addr then none else q.doing a
      line := q.line.filter fun p => p.1 ≠ w.addr })

instance : QueueManager Rota where
  empty := ⟨[], fun _ => none, []⟩
  addWorker _ q w cur := .ok (none, { q.know w cur with turns := w :: q.turns })
  assignRequest _ q w := .ok (q.next w)
  workerTerminated q w := .ok (q.remove w)
  enqueueRequest q _ r := q.submit r
  queuedCount q := q.line.length
  currentRequest q w := (q.job w, q.know w none)
  workerFinished _ q w := .ok ((q.give w none).next w)
  workerCancelled q w := (q.job w, q.give w none)

end Rota
end Broker
