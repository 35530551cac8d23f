import Verif.Model.Handler

/-!
# Histories and what can be observed in them

Message classification uses the literal strings of the protocol, not the model's helpers.
-/

namespace Broker

variable {Q : Type} [QueueManager Q]

/-- One handled message: the state before, the message, the state after. -/
structure Tr (Q : Type) where
  pre : HState Q
  msg : Msg
  post : HState Q

/-- The messages emitted while handling the message. -/
def Tr.outs (t : Tr Q) : List Msg := t.post.outs

/-- Histories: the messages handled so far, oldest first, and the state reached.  Handling a message
    abnormally (exception, undefined behaviour) ends the broker, so histories consist of normal
    steps. -/
inductive Run (cfg : HConfig) (env : Env) : List (Tr Q) → HState Q → Prop
  | nil : Run cfg env [] (HState.init Q)
  | snoc {h : List (Tr Q)} {s : HState Q} {m : Msg} {s' : HState Q} (hr : Run cfg env h s)
      (hs : step cfg env m s = .ok () s') : Run cfg env (h ++ [⟨s, m, s'⟩]) s'

/-- All messages emitted in a history, in order. -/
def emitted (h : List (Tr Q)) : List Msg := h.flatMap Tr.outs

namespace Spec

/-- Part of a frame before the first `=`. -/
def frameKey (f : String) : String := String.ofList (f.toList.takeWhile (· != '='))

/-- Part of a frame after the first `=`; the whole frame if there is none. -/
def frameValue (f : String) : String :=
  if '=' ∈ f.toList then String.ofList ((f.toList.dropWhile (· != '=')).tail) else f

/-- A final job-status notification for job `j`. -/
def isFinal (j : String) (m : Msg) : Bool :=
  m.key == "status_notifier" && m.data.take 5 == ["type", "job-status", "id", j, "status"]

/-- A final notification of success for job `j`. -/
def isOk (j : String) (m : Msg) : Bool :=
  m.key == "status_notifier" && m.data == ["type", "job-status", "id", j, "status", "OK"]

/-- A final notification of failure for job `j`. -/
def isFailed (j : String) (m : Msg) : Bool :=
  m.key == "status_notifier" &&
    m.data.take 7 == ["type", "job-status", "id", j, "status", "FAILED", "message"]

/-- An evaluation message for a worker. -/
def isEval (m : Msg) : Bool := m.key == "workers" && m.data.head? == some "eval"

/-- An evaluation message for the worker with identity `i`. -/
def isEvalTo (i : String) (m : Msg) : Bool := isEval m && m.identity == i

/-- An evaluation message for job `j`. -/
def isEvalOf (j : String) (m : Msg) : Bool :=
  m.key == "workers" && m.data.take 2 == ["eval", j]

/-- The message was an evaluation request for job `j` and the broker accepted it. -/
def accepts (j : String) (t : Tr Q) : Bool :=
  t.msg.key == "clients" && t.msg.data.take 2 == ["eval", j] &&
    t.outs.contains ⟨"clients", t.msg.identity, ["accept"]⟩

/-- The job a worker says it is processing: the last `current_job` item after the first empty frame
    of an `init` message. -/
def currentJob (data : List String) : Option String :=
  (((data.drop 2).dropWhile (· != "")).filter (fun f => frameKey f == "current_job")).getLast?.map
    frameValue

/-- The message registered a worker that says it is processing job `j`. -/
def adopts (j : String) (t : Tr Q) : Bool :=
  t.msg.key == "workers" && t.msg.data.head? == some "init" &&
    decide (t.pre.workers.length < t.post.workers.length) && currentJob t.msg.data == some j

/-- A message with command `c` from the worker identity `i`. -/
def fromWorker (c i : String) (t : Tr Q) : Bool :=
  t.msg.key == "workers" && t.msg.identity == i && t.msg.data.head? == some c

/-- Effective reports: a status the broker understands with the right number of frames. -/
def effective (status : String) (rest : List String) : Bool :=
  status == "OK" || ((status == "INTERNAL_ERROR" || status == "FAILED") && rest.length == 1)

/-- A handled report: a `done` message of a registered worker about the job it is processing, with
    a status the broker understands. -/
def handledReport (t : Tr Q) : Bool :=
  match t.msg.data with
  | c :: j :: status :: rest =>
    t.msg.key == "workers" && c == "done" && effective status rest &&
      match t.pre.workers.find? (fun w => w.identity == t.msg.identity) with
      | none => false
      | some w => (QueueManager.currentRequest t.pre.queue w).1.map (·.jobId) == some j
  | _ => false

/-- A final notification of success, for whatever job. -/
def isSuccess (m : Msg) : Bool :=
  m.key == "status_notifier" &&
    match m.data with
    | ["type", "job-status", "id", _, "status", "OK"] => true
    | _ => false

/-- A handled failure report: `FAILED` or `INTERNAL_ERROR` with a text, from a registered worker,
    about the job it is processing. -/
def failureReport (t : Tr Q) : Bool :=
  match t.msg.data with
  | [c, j, status, _] =>
    t.msg.key == "workers" && c == "done" && (status == "FAILED" || status == "INTERNAL_ERROR") &&
      match t.pre.workers.find? (fun w => w.identity == t.msg.identity) with
      | none => false
      | some w => (QueueManager.currentRequest t.pre.queue w).1.map (·.jobId) == some j
  | _ => false

end Spec

end Broker
