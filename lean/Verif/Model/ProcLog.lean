import Verif.Model.Log
import Verif.Model.Process

/-!
# What the whole process writes to the log, and what it does on the web

`Model/Log.lean` has the logging calls of src/handlers/broker_handler.cpp.  Here are the other ones
(src/broker_core.cpp, src/broker_connect.cpp, src/handlers/status_notifier_handler.cpp), added to the
model of the process (`Proc`, `Model/Process.lean`), together with the inside of `curl_post` as far as
it decides what is logged and whether a request is made at all.

The two threads write to the same log.  A turn of the notifier thread is one event of the model although
it can take long, so the entries of the two threads are kept apart; the log is an interleaving of the two
lists.
-/

namespace Broker

/-! ## Entries -/

/-- A logging call with its arguments. -/
inductive ProcEntry where
  /-- a call in src/broker_core.cpp or src/broker_connect.cpp with its level and text -/
  | core (level : Level) (text : String)
  /-- a call in src/handlers/broker_handler.cpp -/
  | handler (e : LogEntry)
  /-- src/handlers/status_notifier_handler.cpp:61 with `exception.what()`, a C string -/
  | curlFailed (what : String)
  deriving DecidableEq, Repr

/-- The level of the call. -/
def ProcEntry.level : ProcEntry → Level
  | .core l _ => l
  | .handler e => e.level
  | .curlFailed _ => .critical

/-- The text, with the arguments put in. -/
def ProcEntry.text : ProcEntry → String
  | .core _ t => t
  | .handler e => e.text
  | .curlFailed what => "curl failed: " ++ what

/-- What a logger of this level writes. -/
def logged (lv : Level) (es : List ProcEntry) : List ProcEntry := es.filter fun e => lv.writes e.level

/-! ## Start -/

/-- The constructor of `broker_core` from `log_init` on, given the configuration
    (src/broker_core.cpp:101-153, src/broker_connect.cpp:24-32).  `net`: the sockets can be created.
    `logHeader` has the first lines already filtered. -/
def startEntries (b : BrokerConfig) (net : Bool) : List ProcEntry :=
  (logHeader (getLogLevel b.log.logLevel)).map (fun x => .core x.1 x.2) ++
  [.core .info "Initializing CURL...", .core .info "CURL initialized.",       -- 150, 152
   .core .info "Initializing broker connection..."] ++                        -- 128
  match chooseManager b.queueManager with
  | none => [.core .critical ("Unknown queue manager '" ++ b.queueManager ++
      "'. Available managers are 'single' and 'multi'.")]                     -- 139, 77
  | some _ =>
    [.core .debug ("Binding clients to " ++ endpoint b.clientAddress b.clientPort),
     .core .debug ("Binding workers to " ++ endpoint b.workerAddress b.workerPort),
     .core .debug ("Binding monitor to " ++ endpoint b.monitorAddress b.monitorPort)] ++
    if net then [.core .info "Broker connection initialized."] else []        -- 142, 143

/-- What is in the log when the constructor of `broker_core` is left, in whichever way
    (`startProcess`).  Before `log_init` there is no logger. -/
def startLog (c : Conv) (junk : Nat) (w : World) (cmd : CmdLine) : List ProcEntry :=
  match cmd with
  | .bad _ => []
  | .options true _ => []
  | .options false config =>
    match w.file (configName config) with
    | .error _ => []
    | .ok doc =>
      match loadConfig c junk doc with
      | .error _ => []
      | .ok b =>
        match w.log with
        | some _ => []
        | none => logged (getLogLevel b.log.logLevel) (startEntries b w.net)

/-! ## `curl_post` -/

/-- What happens in a call of `curl_post`. -/
inductive CurlResult where
  /-- `curl_easy_init` returns a null pointer: nothing is done, no exception
      (src/helpers/curl.cpp:112-113, 157) -/
  | noHandle
  /-- the request was made and accepted -/
  | ok
  /-- the request failed with this `CURLINFO_RESPONSE_CODE` and this `curl_easy_strerror` -/
  | failed (code : Int) (error : String)
  deriving DecidableEq, Repr

/-- Whether `curl_post` returns normally. -/
def CurlResult.returns : CurlResult → Bool
  | .failed _ _ => false
  | _ => true

/-- `what()` of the exception (src/helpers/curl.cpp:109-110, 150-154, 168-171), as a C string. -/
def curlWhat (cfg : NotifierConfig) (n : Notification) (code : Int) (error : String) : String :=
  cString ("POST request failed to " ++ (notificationUrl cfg n ++ "?" ++ httpQuery n.params) ++
    ". Error: (" ++ intStr code ++ ") " ++ error)

/-- The loop of `status_notifier_handler::on_request`
    (src/handlers/status_notifier_handler.cpp:53-65): the requests that were really made with their
    outcome, and the logging calls.  What is done besides is in `retryLoop`. -/
def retryLoopL (cfg : NotifierConfig) (n : Notification) (res : Nat → CurlResult) :
    (retries : Nat) → (attempt : Nat) → List (HttpPost × Bool) × List ProcEntry
  | 0, _ => ([], [])
  | retries + 1, i =>
    match res i with
    | .noHandle => ([], [])
    | .ok => ([(httpPost cfg n, true)], [])
    | .failed code error =>
      let x := retryLoopL cfg n res retries (i + 1)
      ((httpPost cfg n, false) :: x.1, .curlFailed (curlWhat cfg n code error) :: x.2)

/-- `status_notifier_handler::on_request` (src/handlers/status_notifier_handler.cpp:18-66). -/
def notifierL (cfg : NotifierConfig) (res : Nat → CurlResult) (m : Msg) :
    List (HttpPost × Bool) × List ProcEntry :=
  match parseNotification m.data with
  | .error _ => ([], [])
  | .ok n => retryLoopL cfg n res 4 0

/-! ## The process -/

/-- The process with its log and its requests. -/
structure LProc (Q : Type) where
  proc : Proc Q
  /-- entries of the main thread -/
  main : List ProcEntry
  /-- entries of the notifier thread -/
  thread : List ProcEntry
  /-- HTTP requests made, and whether they were accepted -/
  web : List (HttpPost × Bool)

/-- Events: those of `Proc`, where the turns of the notifier thread come with the results of
    `curl_post`. -/
inductive LEv where
  | take (res : Nat → CurlResult)
  | other (ev : PEv)

/-- As an event of `Proc`. -/
def LEv.ev : LEv → PEv
  | .take res => .sys (.take fun i => (res i).returns)
  | .other ev => ev

section
variable {Q : Type} [QueueManager Q]

/-- The entries the broker handler writes for a message. -/
def handlerEntries (lv : Level) (cfg : HConfig) (env : Env) (m : Msg) (h : HState Q) :
    List ProcEntry :=
  match stepLog lv cfg env m h with
  | .ok _ t => t.log.map .handler
  | .error _ t => t.log.map .handler

/-- The entries of the handlers the loop passes a message to. -/
def processEntries (lv : Level) (cfg : HConfig) (env : Env) (m : Msg) (h : HState Q) :
    List ProcEntry :=
  (brokerWiring.process m).flatMap fun
    | .handler .broker => handlerEntries lv cfg env m h
    | _ => []

/-- The entries of the next step of the main thread (`Sys.main`). -/
def mainEntries (lv : Level) (cfg : HConfig) (env : Env) (s : Sys Q) : List ProcEntry :=
  match s.todo with
  | _ :: _ => []
  | [] =>
    match s.pc with
    | .poll => []
    | .halt _ => []
    | .serve (k :: _) _ =>
      match s.inbox k with
      | [] => []
      | (i, d) :: _ =>
        match receiveMessage k (recvFrames (i :: d)) with
        | none => []
        | some r => processEntries lv cfg env r.1 s.h
    | .serve [] el => processEntries lv cfg env (timerMsg el) s.h

/-- `broker_core::curl_fini` (src/broker_core.cpp:155-161), called by the destructor of
    `broker_core`. -/
def cleanupEntries : List ProcEntry :=
  [.core .info "Cleanup after CURL...", .core .info "CURL cleaned."]

/-- The entries of src/broker_core.cpp:28-30 and src/broker_connect.cpp:47 and of the destructor
    (src/main.cpp:11-16: the destructor of `core` runs before `main` returns, and before the handler
    of exceptions; its body precedes the destruction of the members). -/
def coreEntries (ev : PEv) (p : Proc Q) : List ProcEntry :=
  match ev with
  | .enter bound => .core .info "Broker will now start brokering." :: if bound then [] else cleanupEntries
  | .unwind => cleanupEntries
  | .joined =>
    match p.phase with
    | .joining 0 =>
      [.core .critical "The main loop terminated", .core .info "Broker will now end."] ++ cleanupEntries
    | _ => []
  | _ => []

/-- The entries of the main thread for an event. -/
def LEv.mainEntries (lv : Level) (cfg : HConfig) (env : Env) (p : Proc Q) : LEv → List ProcEntry
  | .other (.sys .main) => Broker.mainEntries lv cfg env p.sys
  | .other ev => logged lv (coreEntries ev p)
  | .take _ => []

/-- The requests and entries of the notifier thread for an event: those of the message it takes. -/
def LEv.turn (e : SysEnv) (p : Proc Q) : LEv → List (HttpPost × Bool) × List ProcEntry
  | .take res =>
    match p.sys.pipe with
    | [] => ([], [])
    | fs :: _ =>
      match threadTurn (recvFrames fs) with
      | some (.request m, _) => notifierL e.ncfg res m
      | _ => ([], [])
  | .other _ => ([], [])

/-- Transitions; `none`: the event cannot happen.  Turns of the notifier thread are `LEv.take`. -/
def LProc.next (lv : Level) (cfg : HConfig) (env : Env) (e : SysEnv) (ev : LEv) (p : LProc Q) :
    Option (LProc Q) :=
  match ev with
  | .other (.sys (.take _)) => none
  | _ => (p.proc.next cfg env e ev.ev).map fun q =>
    { proc := q
      main := p.main ++ ev.mainEntries lv cfg env p.proc
      thread := p.thread ++ logged lv (ev.turn e p.proc).2
      web := p.web ++ (ev.turn e p.proc).1 }

/-- After the constructors, without the entries written there (`startLog`). -/
def LProc.init (Q : Type) [QueueManager Q] : LProc Q := ⟨Proc.init Q, [], [], []⟩

/-- Executions of the process with a logger of level `lv`. -/
inductive LPRun (lv : Level) (cfg : HConfig) (env : Env) (e : SysEnv) : List LEv → LProc Q → Prop
  | nil : LPRun lv cfg env e [] (LProc.init Q)
  | snoc {evs : List LEv} {p p' : LProc Q} {ev : LEv} (hr : LPRun lv cfg env e evs p)
      (hs : p.next lv cfg env e ev = some p') : LPRun lv cfg env e (evs ++ [ev]) p'

end

end Broker
