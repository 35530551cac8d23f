import Verif.Props.Config

/-!
# The project's own tests of the configuration, run on the model

Every test in tests/broker_config.cpp, on the tree of nodes the parser gives for the document.
-/

namespace Broker.Tests

/-- The characters up to the last `/` and those after it. -/
def splitPath (s : String) : String × String :=
  let l := s.toList.reverse
  (String.ofList (l.dropWhile (· ≠ '/')).tail.reverse, String.ofList (l.takeWhile (· ≠ '/')).reverse)

/-- Decimal numbers, and paths of the form `directory/file`. -/
def convTest : Conv :=
  { conv0 with filename := fun s => (splitPath s).2, parentPath := fun s => (splitPath s).1 }

/-- config_basic (lines 7-46) -/
example : (loadConfig convTest 7 (ymap
      [("clients", ymap [("address", .scalar "192.168.5.5"), ("port", .scalar "8452")]),
       ("workers", ymap [("address", .scalar "10.0.1.2"), ("port", .scalar "5482"),
         ("max_liveness", .scalar "10"), ("max_request_failures", .scalar "10"),
         ("ping_interval", .scalar "1234")]),
       ("monitor", ymap [("address", .scalar "77.75.76.3"), ("port", .scalar "5454")]),
       ("logger", ymap [("file", .scalar "/var/log/isoeval"), ("level", .scalar "emerg"),
         ("max-size", .scalar "2048576"), ("rotations", .scalar "5")])])).toOption.any (fun c =>
    c.clientAddress == "192.168.5.5" && c.clientPort == 8452 && c.workerAddress == "10.0.1.2" &&
    c.workerPort == 5482 && c.maxWorkerLiveness == 10 && c.maxRequestFailures == 10 &&
    c.workerPingInterval == 1234 && c.monitorAddress == "77.75.76.3" && c.monitorPort == 5454 &&
    c.log == { logPath := "/var/log", logBasename := "isoeval", logLevel := "emerg",
               logFileSize := 2048576, logFilesCount := 5 }) = true := by decide +kernel

/-- invalid_port_1 (lines 48-54) -/
example : loadConfig convTest 7 (ymap [("clients", ymap [("port", .scalar "foo")])]) = .error ⟨⟩ := by
  decide +kernel

/-- invalid_port_2 (lines 56-62) -/
example : loadConfig convTest 7 (ymap [("clients", ymap [("port", .scalar "999999")])]) =
    .error ⟨⟩ := by decide +kernel

/-- invalid_document (lines 64-69) -/
example : loadConfig convTest 7 (.seq [.scalar "1", .scalar "2", .scalar "3"]) = .error ⟨⟩ := by
  decide +kernel

end Broker.Tests
