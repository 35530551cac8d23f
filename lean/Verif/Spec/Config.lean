import Verif.Model.Core

/-!
# What the configuration file means

A table of the items with their places, conversions and defaults, independent of the order and the
nesting of the tests in the code.
-/

namespace Broker.Spec

/-- The node at a place in a document. -/
def nodeAt : List String → Yaml → Option Yaml
  | [], n => some n
  | k :: p, .map es =>
    match es.find? (fun e => match e.1 with | .scalar t => t == k | _ => false) with
    | some e => nodeAt p e.2
    | none => none
  | _ :: _, _ => none

/-- The text of the scalar at a place in a document. -/
def scalarAt (p : List String) (doc : Yaml) : Option String :=
  match nodeAt p doc with
  | some (.scalar s) => some s
  | _ => none

/-- Values of configuration items. -/
inductive Val where
  | text (s : String)
  | num (n : Int)
  deriving DecidableEq, Repr

/-- A configuration item. -/
structure Item where
  /-- its place in the document -/
  path : List String
  /-- its value for the text given there, `none` if the text is not acceptable -/
  conv : Conv → String → Option Val
  /-- its value if no scalar is given -/
  default : Val
  /-- the value in effect -/
  read : BrokerConfig → Val

/-- Kinds of items. -/
def asText (_ : Conv) (s : String) : Option Val := some (.text s)
/-- Sixteen-bit numbers. -/
def asPort (c : Conv) (s : String) : Option Val := (c.u16 s).map fun (n : Nat) => .num n
/-- Sixty-four-bit numbers. -/
def asSize (c : Conv) (s : String) : Option Val := (c.size s).map fun (n : Nat) => .num n
/-- Milliseconds; numbers from 2^63 on are taken modulo 2^64 as negative. -/
def asMillis (c : Conv) (s : String) : Option Val :=
  (c.size s).map fun (n : Nat) => .num (if (n : Int) < 2 ^ 63 then n else (n : Int) - 2 ^ 64)

/-- The configuration items except the port of the notifier. -/
def items : List Item :=
  [⟨["queue_manager"], asText, .text "single", fun b => .text b.queueManager⟩,
   ⟨["clients", "address"], asText, .text "*", fun b => .text b.clientAddress⟩,
   ⟨["clients", "port"], asPort, .num 0, fun b => .num b.clientPort⟩,
   ⟨["workers", "address"], asText, .text "*", fun b => .text b.workerAddress⟩,
   ⟨["workers", "port"], asPort, .num 0, fun b => .num b.workerPort⟩,
   ⟨["workers", "max_liveness"], asSize, .num 4, fun b => .num b.maxWorkerLiveness⟩,
   ⟨["workers", "max_request_failures"], asSize, .num 3, fun b => .num b.maxRequestFailures⟩,
   ⟨["workers", "ping_interval"], asMillis, .num 1000, fun b => .num b.workerPingInterval⟩,
   ⟨["monitor", "address"], asText, .text "127.0.0.1", fun b => .text b.monitorAddress⟩,
   ⟨["monitor", "port"], asPort, .num 7894, fun b => .num b.monitorPort⟩,
   ⟨["notifier", "address"], asText, .text "", fun b => .text b.notifier.address⟩,
   ⟨["notifier", "username"], asText, .text "", fun b => .text b.notifier.username⟩,
   ⟨["notifier", "password"], asText, .text "", fun b => .text b.notifier.password⟩,
   ⟨["logger", "file"], fun c s => some (.text (c.filename s)), .text "broker",
    fun b => .text b.log.logBasename⟩,
   ⟨["logger", "file"], fun c s => some (.text (c.parentPath s)), .text "/var/log/recodex/",
    fun b => .text b.log.logPath⟩,
   ⟨["logger", "level"], asText, .text "debug", fun b => .text b.log.logLevel⟩,
   ⟨["logger", "max-size"], asSize, .num 1048576, fun b => .num b.log.logFileSize⟩,
   ⟨["logger", "rotations"], asSize, .num 3, fun b => .num b.log.logFilesCount⟩]

/-- The port of the notifier; `d` stands for its default. -/
def notifierPort (d : Nat) : Item :=
  ⟨["notifier", "port"], asPort, .num d, fun b => .num b.notifier.port⟩

/-- Levels from the least to the most verbose. -/
def verbosity : Level → Nat
  | .off => 0 | .critical => 1 | .err => 2 | .warn => 3 | .info => 4 | .debug => 5 | .trace => 6

/-- The names in the documentation (README.md:143-144, src/config/log_config.h:26), from the least to
    the most verbose. -/
def documented : List String :=
  ["off", "emerg", "alert", "critical", "err", "warn", "notice", "info", "debug", "trace"]

/-- A lower-case hexadecimal digit. -/
def isHex (c : Char) : Prop := ('0' ≤ c ∧ c ≤ '9') ∨ ('a' ≤ c ∧ c ≤ 'f')

end Broker.Spec
