import Verif.Model.Core

/-!
# The process from the command line to its end

src/main.cpp, the constructor of `broker_core` (src/broker_core.cpp), the beginning and the end of
`reactor::start_loop`, `reactor::terminate`, and the destruction of the reactor and of the wrapper
of the status notifier handler (src/reactor/reactor.cpp, src/reactor/reactor.h).
-/

namespace Broker

/-! ## Start -/

/-- What `boost::program_options` makes of the command line (src/broker_core.cpp:35-45): an exception,
    or the values of the two options.  The library itself is not modelled. -/
inductive CmdLine where
  | bad (what : String)
  | options (help : Bool) (config : Option String)
  deriving DecidableEq, Repr

/-- What the process meets on the way up, besides the command line. -/
structure World where
  /-- `YAML::LoadFile` by file name; `Except.error` carries `what()` of the exception -/
  file : String → Except String Yaml
  /-- `what()` of the exception `broker_config` throws for this document, if it throws -/
  badConfig : Yaml → String
  /-- the text of the options, as `operator<<` writes it -/
  usage : String
  /-- `what()` of the exception `log_init` meets, if it meets one -/
  log : Option String
  /-- the sockets can be created -/
  net : Bool

/-- How the process ends. -/
structure Exit where
  code : Nat
  /-- lines written to the standard error stream -/
  stderr : List String
  deriving DecidableEq, Repr

/-- `broker_core::force_exit` (src/broker_core.cpp:72-83); `std::exit` does not unwind the stack. -/
def forceExit (msg : String) : Exit := ⟨1, if msg ≠ "" then [msg] else []⟩

/-- The handler at the end of `main` (src/main.cpp:13-16). -/
def catchAll (stderr : List String) : Exit := ⟨1, stderr ++ ["Something very bad happend!"]⟩

/-- The name of the configuration file (src/broker_core.cpp:6, 57-59). -/
def configName (config : Option String) : String := config.getD "config.yml"

/-- The constructor of `broker_core` (src/broker_core.cpp:5-18): either the process ends, or the
    broker is set up.  An exception that leaves the constructor destroys the members constructed so
    far; the wrapper of the status notifier handler, whose destructor is the only one with a
    hazard, is created last (src/broker_connect.cpp:40-41). -/
def startProcess (c : Conv) (junk : Nat) (w : World) (cmd : CmdLine) :
    Except Exit (Manager × BrokerConfig) :=
  match cmd with
  | .bad what => .error (forceExit ("Error in loading a parameter: " ++ what))       -- 46-48
  | .options true _ =>                                                               -- 52-55
    .error ⟨(forceExit "").code, w.usage :: (forceExit "").stderr⟩
  | .options false config =>
    match w.file (configName config) with
    | .error what => .error (forceExit ("Error loading config file: " ++ what))      -- 67-69
    | .ok doc =>
      match loadConfig c junk doc with
      | .error _ => .error (forceExit ("Error loading config file: " ++ w.badConfig doc))
      | .ok b =>
        match w.log with
        | some what => .error (catchAll ["Logger: " ++ what])                        -- 96-99, 120-123
        | none =>
          match chooseManager b.queueManager with
          | none => .error (forceExit ("Unknown queue manager '" ++ b.queueManager ++
              "'. Available managers are 'single' and 'multi'."))                    -- 139
          | some m => if w.net then .ok (m, b) else .error (catchAll [])             -- 142

/-! ## Destruction of the reactor -/

/-- The data members of `reactor` whose destruction does something (src/reactor/reactor.h:199-219). -/
inductive ReactorMember where
  | sockets | handlers | context | asyncSocket | terminationFlag
  deriving DecidableEq, Repr

/-- Their order of declaration (src/reactor/reactor.h:199-219). -/
def reactorMembers : List ReactorMember :=
  [.sockets, .handlers, .context, .asyncSocket, .terminationFlag]

/-- Members are destroyed in the reverse order of their declaration. -/
def destructionOrder : List ReactorMember := reactorMembers.reverse

/-- Whether `async_handler_socket_` still exists when the elements of `handlers_` are destroyed by
    the destructor of `reactor` (which is the implicitly defined one). -/
def socketOutlivesHandlers : Bool :=
  decide (destructionOrder.idxOf .handlers < destructionOrder.idxOf .asyncSocket)

/-! ## The running process -/

/-- Where `main` is. -/
inductive Phase where
  /-- `broker_core` is constructed, `start_loop` has not passed src/reactor/reactor.cpp:74 -/
  | constructed
  /-- in the loop; `checked`: the condition of the loop was evaluated (to true) and `zmq::poll` has
      not returned since -/
  | looping (checked : Bool)
  /-- waiting in `worker_.join()` (src/reactor/reactor.cpp:166); afterwards `main` returns `code` -/
  | joining (code : Nat)
  /-- `main` has returned -/
  | done (e : Exit)
  /-- undefined behaviour -/
  | undefined
  deriving DecidableEq, Repr

/-- The process. -/
structure Proc (Q : Type) where
  sys : Sys Q
  /-- `reactor::termination_flag_`; it has no initial value, `start_loop` writes it before it is
      read -/
  flag : Bool
  phase : Phase

/-- Events. -/
inductive PEv where
  /-- `start_loop` up to line 74; `bound`: all sockets could be bound or connected -/
  | enter (bound : Bool)
  /-- `reactor::terminate` is called by some thread -/
  | terminate
  /-- the condition of the loop is evaluated -/
  | check
  /-- events of the loop, of the peers and of the notifier thread -/
  | sys (ev : SysEv)
  /-- an exception leaves `start_loop` -/
  | unwind
  /-- undefined behaviour in one of the threads -/
  | crash
  /-- `worker_.join()` returns -/
  | joined

section
variable {Q : Type}

/-- After the constructors. -/
def Proc.init (Q : Type) [QueueManager Q] : Proc Q where
  sys := Sys.init Q
  flag := false
  phase := .constructed

/-- The `send` calls of the destructor of `asynchronous_handler_wrapper`
    (src/reactor/reactor.cpp:162-163). -/
def terminateFrames (uid : String) : List (String × Bool) := [(uid, true), (terminateMsg, false)]

/-- The destructor of `asynchronous_handler_wrapper` up to `join` (src/reactor/reactor.cpp:159-166)
    while `async_handler_socket_` exists, and what ZeroMQ does with the message. -/
def Sys.sendTerminate (e : SysEnv) (s : Sys Q) : Sys Q :=
  let r := s.inproc.sendAll (terminateFrames e.uid)
  let done := ((r.sent.drop s.inproc.sent.length).filter (fun x => x.1 == e.uid)).map (·.2)
  if s.drops e then { s with inproc := r } else { s with inproc := r, pipe := s.pipe ++ done }

/-- The elements of `handlers_` are destroyed; `main` will return `code`.  The wrapper of the broker
    handler has nothing to do. -/
def Proc.destroyHandlers (e : SysEnv) (code : Nat) (p : Proc Q) : Proc Q :=
  { p with sys := p.sys.sendTerminate e, phase := .joining code }

/-- An exception leaves `start_loop`: `core` is destroyed before the handler in `main` runs
    (src/main.cpp:11-16), with it `broker_connect` and `reactor`.  If `async_handler_socket_` does
    not exist any more, sending on it is undefined. -/
def Proc.destroyReactor (e : SysEnv) (p : Proc Q) : Proc Q :=
  if socketOutlivesHandlers then p.destroyHandlers e 1 else { p with phase := .undefined }

/-- What `main` returns and writes. -/
def mainExit (code : Nat) : Exit := if code = 0 then ⟨0, []⟩ else catchAll []

variable [QueueManager Q]

/-- Whether the event of the system can happen in this phase, and the phase after it.  Peers can
    reach the sockets once they are bound; the notifier thread runs from the construction on. -/
def Phase.allows : SysEv → Phase → Option Phase
  | .arrive _ _ _, .looping b => some (.looping b)
  | .arrive _ _ _, .joining c => some (.joining c)
  | .poll _ _, .looping true => some (.looping false)
  | .main, .looping b => some (.looping b)
  | .connect, .constructed => some .constructed
  | .connect, .looping b => some (.looping b)
  | .connect, .joining c => some (.joining c)
  | .take _, .constructed => some .constructed
  | .take _, .looping b => some (.looping b)
  | .take _, .joining c => some (.joining c)
  | _, _ => none

/-- Transitions (src/main.cpp:10-18, src/broker_core.cpp:26-31, src/broker_connect.cpp:44-48,
    src/reactor/reactor.cpp:58-135); `none`: the event cannot happen. -/
def Proc.next (cfg : HConfig) (env : Env) (e : SysEnv) (ev : PEv) (p : Proc Q) : Option (Proc Q) :=
  match ev with
  | .enter bound =>
    match p.phase with
    | .constructed =>
      if bound then some { p with flag := false, phase := .looping false }  -- line 74
      else some (p.destroyReactor e)                                        -- line 65 throws
    | _ => none
  | .terminate =>
    match p.phase with
    | .done _ => none
    | .undefined => none
    | _ => some { p with flag := true }                                     -- line 134
  | .check =>
    match p.phase, p.sys.pc, p.sys.todo with
    | .looping false, .poll, [] =>
      if p.flag then some (p.destroyHandlers e 0)                           -- lines 77, 129
      else some { p with phase := .looping true }
    | _, _, _ => none
  | .sys ev =>
    match p.phase.allows ev, p.sys.next cfg env e ev with
    | some ph, some s => some { p with sys := s, phase := ph }
    | _, _ => none
  | .unwind =>
    match p.phase, p.sys.pc, p.sys.todo with
    | .looping _, .halt (.exn _), [] => some (p.destroyReactor e)
    | _, _, _ => none
  | .crash =>
    match p.phase, p.sys.pc, p.sys.thread with
    | .done _, _, _ => none
    | .undefined, _, _ => none
    | _, .halt (.ub _), _ => some { p with phase := .undefined }
    | _, _, .crashed _ => some { p with phase := .undefined }
    | _, _, _ => none
  | .joined =>
    match p.phase, p.sys.thread with
    | .joining code, .stopped => some { p with phase := .done (mainExit code) }
    | _, _ => none

/-- Executions of the process, from the end of the constructor of `broker_core` on. -/
inductive PRun (cfg : HConfig) (env : Env) (e : SysEnv) : List PEv → Proc Q → Prop
  | nil : PRun cfg env e [] (Proc.init Q)
  | snoc {evs : List PEv} {p p' : Proc Q} {ev : PEv} (hr : PRun cfg env e evs p)
      (hs : p.next cfg env e ev = some p') : PRun cfg env e (evs ++ [ev]) p'

end

end Broker
