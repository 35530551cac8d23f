import Verif.Model.Notifier

/-!
# Loading of the configuration

src/config/broker_config.cpp, broker_config.h, notifier_config.h and log_config.h.

The YAML parser is outside: the document is the tree of nodes it gives.  The conversions of a scalar
(`Node::as<T>`) depend on the version of yaml-cpp and are parameters, functions of the text of the
scalar; so are the two functions of `boost::filesystem::path`.
-/

namespace Broker

/-- `YAML::Node`.  (A missing entry is `none` of `Option Yaml`.) -/
inductive Yaml where
  | null
  | scalar (text : String)
  | seq (items : List Yaml)
  | map (entries : List (Yaml × Yaml))

/-- `Node::IsMap`. -/
def Yaml.isMap : Yaml → Bool
  | .map _ => true
  | _ => false

/-- `Node::operator[]` with a string on a map: the value of the first entry whose key is the scalar
    with that text.  The code applies it to maps only (src/config/broker_config.cpp:7, 16, 26, 45, 55,
    71), on anything else it is not defined here. -/
def Yaml.get (key : String) : Yaml → Option Yaml
  | .map es => (es.find? fun e => match e.1 with | .scalar k => k == key | _ => false).map (·.2)
  | _ => none

/-- Conversions of scalars. -/
structure Conv where
  /-- `as<std::uint16_t>`, `none` if it throws -/
  u16 : String → Option Nat
  u16_lt : ∀ {s n}, u16 s = some n → n < 65536
  /-- `as<std::size_t>`, `none` if it throws -/
  size : String → Option Nat
  size_lt : ∀ {s n}, size s = some n → n < SZ
  /-- `fs::path::filename().string()` -/
  filename : String → String
  /-- `fs::path::parent_path().string()` -/
  parentPath : String → String

/-- `log_config` (src/config/log_config.h:10-36). -/
structure LogConfig where
  logPath : String := "/var/log/recodex/"
  logBasename : String := "broker"
  logSuffix : String := "log"
  logLevel : String := "debug"
  logFileSize : Nat := 1024 * 1024
  logFilesCount : Nat := 3
  deriving DecidableEq, Repr

/-- The members of `broker_config` (src/config/broker_config.h:97-124) with their initialisers. -/
structure BrokerConfig where
  queueManager : String := "single"
  clientAddress : String := "*"
  workerAddress : String := "*"
  monitorAddress : String := "127.0.0.1"
  clientPort : Nat := 0
  workerPort : Nat := 0
  monitorPort : Nat := 7894
  maxWorkerLiveness : Nat := 4
  maxRequestFailures : Nat := 3
  /-- `std::chrono::milliseconds` -/
  workerPingInterval : Int := 1000
  log : LogConfig := {}
  notifier : NotifierConfig
  deriving DecidableEq, Repr

/-- A `broker_config` before the body of its constructor (src/config/broker_config.cpp:4).  The port of
    the notifier has no initialiser (src/config/notifier_config.h:20), its value is what the memory
    happens to hold. -/
def BrokerConfig.fresh (junk : Nat) : BrokerConfig where
  notifier := { address := "", port := junk, username := "", password := "" }

/-- The constructor throws `config_error`. -/
structure ConfigError where
  deriving DecidableEq, Repr

/-- `std::chrono::milliseconds(n)` of a `std::size_t`: converted to a signed 64-bit count. -/
def msOfSize (n : Nat) : Int := if n < 9223372036854775808 then n else (n : Int) - SZ

/-- `if (node && node.IsScalar()) field = node.as<T>()`. -/
def loadScalar {α : Type} (node : Option Yaml) (as : String → Option α)
    (set : α → BrokerConfig → BrokerConfig) (b : BrokerConfig) : Except ConfigError BrokerConfig :=
  match node with
  | some (.scalar s) =>
    match as s with
    | some v => .ok (set v b)
    | none => .error ⟨⟩
  | _ => .ok b

/-- src/config/broker_config.cpp:16-23. -/
def loadClients (c : Conv) (doc : Yaml) (b : BrokerConfig) : Except ConfigError BrokerConfig :=
  match doc.get "clients" with
  | some (.map es) => do
    let n := Yaml.map es
    let b ← loadScalar (n.get "address") some (fun v b => { b with clientAddress := v }) b
    loadScalar (n.get "port") c.u16 (fun v b => { b with clientPort := v }) b
  | _ => .ok b

/-- src/config/broker_config.cpp:26-42. -/
def loadWorkers (c : Conv) (doc : Yaml) (b : BrokerConfig) : Except ConfigError BrokerConfig :=
  match doc.get "workers" with
  | some (.map es) => do
    let n := Yaml.map es
    let b ← loadScalar (n.get "address") some (fun v b => { b with workerAddress := v }) b
    let b ← loadScalar (n.get "port") c.u16 (fun v b => { b with workerPort := v }) b
    let b ← loadScalar (n.get "max_liveness") c.size (fun v b => { b with maxWorkerLiveness := v }) b
    let b ← loadScalar (n.get "max_request_failures") c.size
      (fun v b => { b with maxRequestFailures := v }) b
    loadScalar (n.get "ping_interval") c.size
      (fun v b => { b with workerPingInterval := msOfSize v }) b
  | _ => .ok b

/-- src/config/broker_config.cpp:45-52. -/
def loadMonitor (c : Conv) (doc : Yaml) (b : BrokerConfig) : Except ConfigError BrokerConfig :=
  match doc.get "monitor" with
  | some (.map es) => do
    let n := Yaml.map es
    let b ← loadScalar (n.get "address") some (fun v b => { b with monitorAddress := v }) b
    loadScalar (n.get "port") c.u16 (fun v b => { b with monitorPort := v }) b
  | _ => .ok b

/-- src/config/broker_config.cpp:55-68. -/
def loadNotifier (c : Conv) (doc : Yaml) (b : BrokerConfig) : Except ConfigError BrokerConfig :=
  match doc.get "notifier" with
  | some (.map es) => do
    let n := Yaml.map es
    let b ← loadScalar (n.get "address") some
      (fun v b => { b with notifier := { b.notifier with address := v } }) b
    let b ← loadScalar (n.get "port") c.u16
      (fun v b => { b with notifier := { b.notifier with port := v } }) b
    let b ← loadScalar (n.get "username") some
      (fun v b => { b with notifier := { b.notifier with username := v } }) b
    loadScalar (n.get "password") some
      (fun v b => { b with notifier := { b.notifier with password := v } }) b
  | _ => .ok b

/-- src/config/broker_config.cpp:71-86. -/
def loadLogger (c : Conv) (doc : Yaml) (b : BrokerConfig) : Except ConfigError BrokerConfig :=
  match doc.get "logger" with
  | some (.map es) => do
    let n := Yaml.map es
    let b ← loadScalar (n.get "file") some
      (fun v b => { b with log := { b.log with logBasename := c.filename v, logPath := c.parentPath v } }) b
    let b ← loadScalar (n.get "level") some
      (fun v b => { b with log := { b.log with logLevel := v } }) b
    let b ← loadScalar (n.get "max-size") c.size
      (fun v b => { b with log := { b.log with logFileSize := v } }) b
    loadScalar (n.get "rotations") c.size
      (fun v b => { b with log := { b.log with logFilesCount := v } }) b
  | _ => .ok b

/-- `broker_config::broker_config(const YAML::Node &)` (src/config/broker_config.cpp:4-90).
    `as<std::string>` of a scalar gives its text. -/
def loadConfig (c : Conv) (junk : Nat) (doc : Yaml) : Except ConfigError BrokerConfig :=
  if doc.isMap then do
    let b := BrokerConfig.fresh junk
    let b ← loadScalar (doc.get "queue_manager") some (fun v b => { b with queueManager := v }) b
    let b ← loadClients c doc b
    let b ← loadWorkers c doc b
    let b ← loadMonitor c doc b
    let b ← loadNotifier c doc b
    loadLogger c doc b
  else .error ⟨⟩

end Broker
