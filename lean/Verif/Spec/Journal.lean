import Verif.Spec.Log
import Verif.Spec.Capability
import Mathlib.Data.List.Sort

/-!
# What has to be in the log

The entries about a handled message, from the message, the state before and after, and what was sent;
without the entries about the dispatch of jobs to workers.
-/

namespace Broker.Spec

variable {Q : Type} [QueueManager Q]

/-- Entries about jobs given to workers and put into queues again. -/
def isDispatch : LogEntry → Bool
  | .sent _ _ | .reassigning _ _ | .waiting _ | .notEnqueued _ => true
  | _ => false

/-- The headers of a request: metadata left out, by name, those with the same name in the order in
    which they came. -/
def asked (fs : List String) : List (String × String) :=
  (((headerFrames fs).filter fun f => !isMeta f).map fun f => (frameKey f, frameValue f)).insertionSort
    fun a b => a.1 ≤ b.1

/-- After `eval`. -/
def evalJournal (t : Tr Q) : List String → List LogEntry
  | [] => []
  | job :: fs =>
    if "" ∉ fs then [.unexpectedEnd]
    else if t.pre.frozen then [.rejectedFrozen job]
    else .incoming job ::
      if t.outs.any isReject then
        .rejectedHeaders job :: (asked fs).map fun x => .rejectedHeader x.1 x.2
      else if t.outs.any fun m => m.key == "workers" then [] else [.saved]

/-- After `init`. -/
def initJournal (t : Tr Q) (frames : List String) : List LogEntry :=
  if frames = [] then [.initNoArgument]
  else (t.post.workers.drop t.pre.workers.length).map fun w =>
    .added w.getDescription (String.join (frames.map fun f => f ++ " "))

/-- The worker has nothing to do afterwards. -/
def freeJournal (t : Tr Q) (w : Worker) : List LogEntry :=
  if (QueueManager.currentRequest t.post.queue w).1.isNone then [.free w.getDescription] else []

/-- After `done`. -/
def doneJournal (t : Tr Q) (frames : List String) : List LogEntry :=
  match t.pre.workers.find? fun w => w.identity == t.msg.identity with
  | none => [.doneUnknown]
  | some w =>
    match frames with
    | job :: status :: rest =>
      match (QueueManager.currentRequest t.pre.queue w).1 with
      | none => []
      | some r =>
        if job ≠ r.jobId then [.doneMismatch w.getDescription job r.jobId]
        else if status = "OK" then freeJournal t w
        else if status = "INTERNAL_ERROR" then
          if rest.length = 1 then freeJournal t w else [.internalArgs w.getDescription]
        else if status = "FAILED" then
          if rest.length = 1 then freeJournal t w else [.failedArgs w.getDescription]
        else .unexpectedStatus status w.getDescription :: freeJournal t w
    | _ => [.doneShort w.getDescription]

/-- The entries about a handled message. -/
def journal (t : Tr Q) : List LogEntry :=
  match t.msg.data with
  | [] => []
  | command :: frames =>
    if t.msg.key = "clients" then
      if command = "eval" then .evalReceived :: evalJournal t frames
      else if command = "get-runtime-stats" then [.statsRequested]
      else if command = "freeze" then [.frozen]
      else if command = "unfreeze" then [.unfrozen]
      else []
    else if t.msg.key = "workers" then
      if command = "init" then .initReceived :: initJournal t frames
      else if command = "done" then .doneReceived :: doneJournal t frames
      else []
    else if t.msg.key = "timer" then (gone t).map fun w => .expired w.getDescription
    else []

/-- The entries about a message that ends the broker. -/
def lastEntries (m : Msg) : List LogEntry :=
  match m.data with
  | [] => []
  | command :: frames =>
    if m.key = "clients" ∧ command = "eval" then
      match frames with
      | [] => [.evalReceived]
      | job :: fs => if "" ∈ fs then [.evalReceived, .incoming job] else [.evalReceived]
    else if m.key = "workers" ∧ command = "init" then [.initReceived]
    else if m.key = "workers" ∧ command = "done" then [.doneReceived]
    else []

end Broker.Spec
