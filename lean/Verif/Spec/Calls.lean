import Verif.Model.Queue

/-!
# Calls of a queue manager and its answers
-/

namespace Broker.Spec

/-- A call of a member function of the queue manager. -/
inductive Call
  | add (w : Worker) (current : Option Req)
  | assign (w : Worker)
  | finished (w : Worker)
  | terminated (w : Worker)
  | enqueue (r : Req)
  | count
  | current (w : Worker)
  | cancelled (w : Worker)

/-- What the call returns. -/
inductive Answer
  | request (r : Option Req)
  | requests (rs : List Req)
  | enqueued (res : EnqResult)
  | number (n : Nat)

/-- The answer to a call and the queue manager afterwards; the clock was read `n` times before. -/
def answer {Q : Type} [QueueManager Q] (env : Env) (n : Nat) (q : Q) : Call → Except Exn (Answer × Q)
  | .add w c => (QueueManager.addWorker env.srt q w c).map fun x => (.request x.1, x.2)
  | .assign w => (QueueManager.assignRequest env.srt q w).map fun x => (.request x.1, x.2)
  | .finished w => (QueueManager.workerFinished env.srt q w).map fun x => (.request x.1, x.2)
  | .terminated w => (QueueManager.workerTerminated q w).map fun x => (.requests x.1, x.2)
  | .enqueue r => (QueueManager.enqueueRequest q (env.clock n) r).map fun x => (.enqueued x.1, x.2)
  | .count => .ok (.number (QueueManager.queuedCount q), q)
  | .current w => .ok (.request (QueueManager.currentRequest q w).1, (QueueManager.currentRequest q w).2)
  | .cancelled w =>
    .ok (.request (QueueManager.workerCancelled q w).1, (QueueManager.workerCancelled q w).2)

/-- How many times the clock is read. -/
def Call.readings : Call → Nat
  | .enqueue _ => 1
  | _ => 0

/-- The answers to calls one after another; nothing comes after an exception. -/
def answers {Q : Type} [QueueManager Q] (env : Env) : Nat → Q → List Call → List (Except Exn Answer)
  | _, _, [] => []
  | n, q, c :: cs =>
    match answer env n q c with
    | .error e => [.error e]
    | .ok (a, q') => .ok a :: answers env (n + c.readings) q' cs

end Broker.Spec
