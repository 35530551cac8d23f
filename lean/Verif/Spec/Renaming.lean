import Verif.Spec.Run

/-!
# Renaming of job ids, client identities and payloads in messages
-/

namespace Broker.Spec

/-- What replaces job ids (different ones stay different), identities of clients and the data of
    jobs. -/
structure Renaming where
  job : String → String
  job_inj : ∀ {a b : String}, job a = job b → a = b
  client : String → String
  payload : List String → List String

namespace Renaming

/-- Nothing changes. -/
protected def id : Renaming := ⟨_root_.id, _root_.id, _root_.id, _root_.id⟩

variable (ρ : Renaming)

/-- The frames of an `eval` sent to a worker: command, job id, data of the job. -/
def evalOut : List String → List String
  | "eval" :: j :: data => "eval" :: ρ.job j :: ρ.payload data
  | l => l

/-- A list whose first frame is a job id. -/
def first : List String → List String
  | j :: rest => ρ.job j :: rest
  | [] => []

/-- A status notification. -/
def note : List String → List String
  | "type" :: "job-status" :: "id" :: j :: rest => "type" :: "job-status" :: "id" :: ρ.job j :: rest
  | l => l

/-- A message the broker sends: identity of the client it is for, job id and data of an `eval`, job
    id in a message for the monitor, job id in a status notification. -/
def out (m : Msg) : Msg :=
  if m.key = "clients" then { m with identity := ρ.client m.identity }
  else if m.key = "workers" then { m with data := ρ.evalOut m.data }
  else if m.key = "monitor" then { m with data := ρ.first m.data }
  else if m.key = "status_notifier" then { m with data := ρ.note m.data }
  else m

/-- The frames after the job id of an `eval` from a client: the data begins after the first empty
    frame. -/
def afterHeaders : List String → List String
  | [] => []
  | f :: rest => if f = "" then f :: ρ.payload rest else f :: afterHeaders rest

/-- Additional information of an `init`: the frames that say what the worker is doing. -/
def jobFrame (f : String) : String :=
  if frameKey f = "current_job" then "current_job=" ++ ρ.job (frameValue f) else f

/-- The frames after the hardware group of an `init`: additional information begins with the first
    empty frame. -/
def afterGroup (fs : List String) : List String :=
  fs.takeWhile (· != "") ++ (fs.dropWhile (· != "")).map ρ.jobFrame

/-- The frames of a message from a client. -/
def fromClient : List String → List String
  | "eval" :: j :: fs => "eval" :: ρ.job j :: ρ.afterHeaders fs
  | l => l

/-- The frames of a message from a worker. -/
def fromWorker : List String → List String
  | "init" :: g :: fs => "init" :: g :: ρ.afterGroup fs
  | "done" :: j :: rest => "done" :: ρ.job j :: rest
  | "progress" :: j :: rest => "progress" :: ρ.job j :: rest
  | l => l

/-- A message the broker receives. -/
def inp (m : Msg) : Msg :=
  if m.key = "clients" then
    { m with identity := ρ.client m.identity, data := ρ.fromClient m.data }
  else if m.key = "workers" then { m with data := ρ.fromWorker m.data }
  else m

end Renaming

end Broker.Spec
