import Verif.Model.Log
import Verif.Spec.Run

/-!
# Histories with a log and how the log is read
-/

namespace Broker

variable {Q : Type} [QueueManager Q]

/-- Histories of a broker whose logger has level `lv`: the messages handled so far, what has been
    written to the log, oldest first, and the state reached. -/
inductive LRun (lv : Level) (cfg : HConfig) (env : Env) : List (Tr Q) → List LogEntry → HState Q → Prop
  | nil : LRun lv cfg env [] [] (HState.init Q)
  | snoc {h : List (Tr Q)} {log es : List LogEntry} {s s' : HState Q} {m : Msg}
      (hr : LRun lv cfg env h log s) (hs : stepLog lv cfg env m s = .ok () ⟨s', es⟩) :
      LRun lv cfg env (h ++ [⟨s, m, s'⟩]) (log ++ es) s'

/-! ## Concrete histories -/

/-- Handle messages one after the other, starting after a history. -/
def execLog (lv : Level) (cfg : HConfig) (env : Env) : List Msg → List (Tr Q) → List LogEntry →
    HState Q → Option (List (Tr Q) × List LogEntry × HState Q)
  | [], h, log, s => some (h, log, s)
  | m :: ms, h, log, s =>
    match stepLog lv cfg env m s with
    | .ok () t => execLog lv cfg env ms (h ++ [⟨s, m, t.h⟩]) (log ++ t.log) t.h
    | .error _ _ => none

theorem execLog_run {lv : Level} {cfg : HConfig} {env : Env} : ∀ {ms : List Msg} {h : List (Tr Q)}
    {log : List LogEntry} {s : HState Q} {r : List (Tr Q) × List LogEntry × HState Q},
    LRun lv cfg env h log s → execLog lv cfg env ms h log s = some r →
    LRun lv cfg env r.1 r.2.1 r.2.2
  | [], _, _, _, _, hr, he => by cases he; exact hr
  | m :: ms, h, log, s, r, hr, he => by
    unfold execLog at he
    cases hs : stepLog lv cfg env m s with
    | error e t => rw [hs] at he; cases he
    | ok u t =>
      rw [hs] at he
      exact execLog_run (.snoc hr hs) he

/-- A concrete history with a log. -/
theorem exists_lrun {lv : Level} {cfg : HConfig} {env : Env} (ms : List Msg)
    (p : List (Tr Q) → List LogEntry → HState Q → Bool)
    (hp : (execLog lv cfg env ms [] [] (HState.init Q)).any (fun x => p x.1 x.2.1 x.2.2) = true) :
    ∃ h log s, LRun lv cfg env h log s ∧ p h log s = true := by
  cases he : execLog lv cfg env ms [] [] (HState.init Q) with
  | none => rw [he] at hp; cases hp
  | some x =>
    rw [he] at hp
    exact ⟨x.1, x.2.1, x.2.2, execLog_run .nil he, by simpa using hp⟩

namespace Spec

/-- "job … sent to worker …" -/
def sentEntry : LogEntry → Option (String × String)
  | .sent job worker => some (job, worker)
  | _ => none

/-- "Request … rejected." -/
def rejectedEntry : LogEntry → Option String
  | .rejectedFrozen job => some job
  | .rejectedHeaders job => some job
  | _ => none

/-- "Worker … expired" -/
def expiredEntry : LogEntry → Option String
  | .expired worker => some worker
  | _ => none

/-- "The broker was frozen", "The broker was unfrozen" -/
def frozenEntry : LogEntry → Option Bool
  | .frozen => some true
  | .unfrozen => some false
  | _ => none

/-- Messages for workers other than answers to pings. -/
def isJobMsg (m : Msg) : Bool :=
  m.key == "workers" && m.data != ["intro"] && m.data != ["pong"]

/-- Rejections of requests of clients. -/
def isReject (m : Msg) : Bool := m.key == "clients" && m.data.head? == some "reject"

/-- A description names a worker identity: the hexadecimal rendering of the identity, perhaps with more
    text in parentheses. -/
def names (description identity : String) : Prop :=
  description = stringToHex identity ∨ ∃ d, description = stringToHex identity ++ " (" ++ d ++ ")"

/-- The entry "job … sent to worker …" tells the truth about the message. -/
def Tells (e : String × String) (m : Msg) : Prop :=
  m.data.take 2 = ["eval", e.1] ∧ names e.2 m.identity

/-- The workers that were registered before the message was handled and not afterwards. -/
def gone (t : Tr Q) : List Worker := t.pre.workers.filter fun w => decide (w ∉ t.post.workers)

/-- The id of the job a message from a client is about. -/
def jobOf (m : Msg) : String := (m.data[1]?).getD ""

/-- The lines of a text. -/
def lines : List Char → List (List Char)
  | [] => []
  | c :: t =>
    if c = '\n' then [] :: lines t
    else match lines t with
      | [] => [[c]]
      | l :: ls => (c :: l) :: ls

/-- What is in the log file: each entry is a line, with a prefix (time, level). -/
def logFile : List (String × LogEntry) → List Char
  | [] => []
  | (p, e) :: t => p.toList ++ e.text.toList ++ '\n' :: logFile t

end Spec

end Broker
