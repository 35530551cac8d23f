import Verif.Model.Config
import Verif.Model.Reactor
import Verif.Model.Multi
import Verif.Model.Single

/-!
# Start of the broker, log levels

src/broker_core.cpp, src/broker_connect.cpp and src/helpers/logger.cpp.
-/

namespace Broker

/-! ## Log levels -/

/-- `spdlog::level::level_enum`. -/
inductive Level where
  | trace | debug | info | warn | err | critical | off
  deriving DecidableEq, Repr

/-- The values of the enumerators in spdlog; a logger writes a message iff its level is at least the
    level of the logger. -/
def Level.toNat : Level → Nat
  | .trace => 0 | .debug => 1 | .info => 2 | .warn => 3 | .err => 4 | .critical => 5 | .off => 6

/-- `spdlog::logger::should_log`. -/
def Level.writes (logger msg : Level) : Bool := decide (logger.toNat ≤ msg.toNat)

/-- `helpers::get_log_level` (src/helpers/logger.cpp:12-29). -/
def getLogLevel (lev : String) : Level :=
  if lev = "off" then .off
  else if lev = "critical" then .critical
  else if lev = "err" then .err
  else if lev = "warn" then .warn
  else if lev = "info" then .info
  else if lev = "debug" then .debug
  else .trace

/-- `helpers::get_log_level_number` (src/helpers/logger.cpp:31-44). -/
def getLogLevelNumber : Level → Int
  | .trace => 6
  | .debug => 5
  | .info => 4
  | .warn => 3
  | .err => 2
  | .critical => 1
  | _ => 0

/-- `helpers::compare_log_levels` (src/helpers/logger.cpp:46-49). -/
def compareLogLevels (first second : Level) : Int :=
  getLogLevelNumber first - getLogLevelNumber second

/-- What `broker_core::log_init` writes first (src/broker_core.cpp:113-119), as far as the level of the
    logger lets it through. -/
def logHeader (logger : Level) : List (Level × String) :=
  (if compareLogLevels .info logger > 0 then [(.critical, "--- Started ReCodEx broker ---")]
   else [(.info, "------------------------------"), (.info, "    Started ReCodEx broker"),
         (.info, "------------------------------")]).filter fun l => logger.writes l.1

/-! ## Start -/

/-- Endpoints (src/broker_connect.cpp:24-32). -/
def endpoint (address : String) (port : Nat) : String :=
  "tcp://" ++ address ++ ":" ++ natStr port

/-- A socket of the broker: its key, its endpoint, and whether it is bound (otherwise connected) to the
    endpoint (src/reactor/socket_wrapper_base.cpp:29-36). -/
structure SocketSetup where
  key : String
  address : String
  bound : Bool
  deriving DecidableEq, Repr

/-- The sockets created by the constructor of `broker_connect` (src/broker_connect.cpp:24-36). -/
def brokerSockets (b : BrokerConfig) : List SocketSetup :=
  [⟨keyWorkers, endpoint b.workerAddress b.workerPort, true⟩,
   ⟨keyClients, endpoint b.clientAddress b.clientPort, true⟩,
   ⟨keyMonitor, endpoint b.monitorAddress b.monitorPort, false⟩]

/-- The configuration as the handler reads it (src/handlers/broker_handler.cpp:13-21 and the calls of
    the getters of `broker_config`); the bounds come from the types. -/
def BrokerConfig.handler (b : BrokerConfig) (h1 : b.maxWorkerLiveness < SZ)
    (h2 : b.maxRequestFailures < SZ) : HConfig where
  maxLiveness := b.maxWorkerLiveness
  maxLiveness_lt := h1
  maxFailures := b.maxRequestFailures
  maxFailures_lt := h2
  pingInterval := b.workerPingInterval

/-- Which queue manager runs. -/
inductive Manager where
  | multi
  | single
  deriving DecidableEq, Repr

/-- The choice of the queue manager (src/broker_core.cpp:133-140); `none`: `force_exit`. -/
def chooseManager (id : String) : Option Manager :=
  if id = "multi" then some .multi
  else if id = "single" then some .single
  else none

/-- Outcome of the constructor of `broker_core`. -/
inductive Start where
  /-- the process ends with exit code 1 (`force_exit`, or an exception caught in `main`) -/
  | refused
  /-- `run` is called -/
  | running (m : Manager) (b : BrokerConfig)
  deriving DecidableEq, Repr

/-- `broker_core::broker_core` (src/broker_core.cpp:5-18) after the parsing of the command line.
    `file` is what `YAML::LoadFile` gives (`none` if it throws); `logOk`: the directory and the file of
    the log can be created; `netOk`: the sockets can be created. -/
def startBroker (c : Conv) (junk : Nat) (file : Option Yaml) (logOk netOk : Bool) : Start :=
  match file with
  | none => .refused                                        -- lines 64-69
  | some doc =>
    match loadConfig c junk doc with
    | .error _ => .refused                                  -- lines 66-69
    | .ok b =>
      if !logOk then .refused                               -- lines 92-99, 120-123
      else match chooseManager b.queueManager with
        | none => .refused                                  -- line 139
        | some m => if netOk then .running m b else .refused  -- line 142

end Broker
