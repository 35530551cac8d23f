import Verif.Spec.Run

/-!
# The life of a job, seen from outside

Where a job is, what the broker says about it, and how the two change together.
-/

namespace Broker.Spec

open QueueManager

variable {Q : Type} [QueueManager Q]

/-- Where a job is. -/
inductive Loc where
  /-- not in the broker -/
  | away
  /-- waiting for a worker -/
  | waiting
  /-- with the worker with this identity -/
  | at (i : String)
  deriving DecidableEq

/-- What the broker says about a job. -/
inductive Note where
  /-- the job is given to the worker with this identity -/
  | given (i : String)
  /-- the frontend is told that the job is finished -/
  | ok
  /-- the frontend is told that the job failed -/
  | failed (text : String)
  deriving DecidableEq

/-- What a message says about job `j`. -/
def note (j : String) (o : Msg) : Option Note :=
  if o.key = "workers" then
    if o.data.take 2 = ["eval", j] then some (.given o.identity) else none
  else if o.key = "status_notifier" then
    match o.data with
    | ["type", "job-status", "id", j', "status", "OK"] => if j' = j then some .ok else none
    | ["type", "job-status", "id", j', "status", "FAILED", "message", text] =>
      if j' = j then some (.failed text) else none
    | _ => none
  else none

/-- What messages say about job `j`, in order. -/
def notes (j : String) (os : List Msg) : List Note := os.filterMap (note j)

/-- Some registered worker with identity `i` is processing job `j`. -/
def WorksOn (i j : String) (s : HState Q) : Prop :=
  ∃ w ∈ s.workers, w.identity = i ∧ (currentRequest s.queue w).1.map (·.jobId) = some j

/-- What happens to a job that came back: it is given to a worker, waits, or the frontend is told
    that it failed. -/
inductive Retry : List Note → Loc → Prop
  | given (i : String) : Retry [.given i] (.at i)
  | waits : Retry [] .waiting
  | failed (text : String) : Retry [.failed text] .away

/-- How job `j` may move while a message is handled, and what is said about it. -/
inductive Move (j : String) (t : Tr Q) : Loc → List Note → Loc → Prop
  /-- an accepted request is given to a worker -/
  | given (h : accepts j t = true) (i : String) : Move j t .away [.given i] (.at i)
  /-- an accepted request waits -/
  | waits (h : accepts j t = true) : Move j t .away [] .waiting
  /-- a worker introduces itself while it is processing the job -/
  | adopted (h : adopts j t = true) : Move j t .away [] (.at t.msg.identity)
  /-- a worker that introduces itself or reports gets the waiting job -/
  | taken (hk : t.msg.key = "workers")
      (hc : t.msg.data.head? = some "init" ∨ t.msg.data.head? = some "done") :
    Move j t .waiting [.given t.msg.identity] (.at t.msg.identity)
  /-- its worker reports success -/
  | finished (hk : t.msg.key = "workers") {rest : List String}
      (hd : t.msg.data = "done" :: j :: "OK" :: rest) : Move j t (.at t.msg.identity) [.ok] .away
  /-- its worker reports failure -/
  | failed (hk : t.msg.key = "workers") {text : String}
      (hd : t.msg.data = ["done", j, "FAILED", text]) :
    Move j t (.at t.msg.identity) [.failed text] .away
  /-- its worker reports an internal error -/
  | returned (hk : t.msg.key = "workers") {text : String}
      (hd : t.msg.data = ["done", j, "INTERNAL_ERROR", text]) {ns : List Note} {l : Loc}
      (hr : Retry ns l) : Move j t (.at t.msg.identity) ns l
  /-- time passes and a worker falls silent -/
  | silent (hk : t.msg.key = "timer") {l : Loc} (hl : l ≠ .away) {ns : List Note} {l' : Loc}
      (hr : Retry ns l') : Move j t l ns l'

/-- What happens to job `j` while a message is handled: nothing, one move, or with a message of the
    timer, when several workers may fall silent, several moves. -/
inductive Moves (j : String) (t : Tr Q) : Loc → List Note → Loc → Prop
  | stay (l : Loc) : Moves j t l [] l
  | move {l l' : Loc} {ns : List Note} (h : Move j t l ns l') : Moves j t l ns l'
  | more (hk : t.msg.key = "timer") {l l' l'' : Loc} {ns ns' : List Note} (h : Move j t l ns l')
      (ht : Moves j t l' ns' l'') : Moves j t l (ns ++ ns') l''

/-- The job is in the broker at most once at a time: whenever a request for it was accepted or a
    worker processing it registered, everything before had led to a final notification. -/
def OneAtATime (j : String) (h : List (Tr Q)) : Prop :=
  ∀ h1 h2, h = h1 ++ h2 →
    h1.countP (accepts j) + h1.countP (adopts j) ≤ (emitted h1).countP (isFinal j) + 1

end Broker.Spec
